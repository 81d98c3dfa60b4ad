import Verif.Strtod.Model
/-!
# strtod: what is read and where the end pointer points, for every arithmetic
-/

namespace Mlibc.Strtod

theorem digit_of (hex : Bool) (c : Nat) (h : Digit hex c) :
    digit hex c = some (digitValue c : Int) := by
  unfold digit digitValue isXdigit isDigit lower
  unfold Digit DecDigit at h
  cases hex
  · have h' : 48 ≤ c ∧ c ≤ 57 := by simpa using h
    have e : (decide (48 ≤ c) && decide (c ≤ 57)) = true := by simpa using h'
    rw [if_neg (by decide), e]
    simp only [if_true]
    rw [if_pos h'.2]; congr 1; omega
  · have h' : (48 ≤ c ∧ c ≤ 57) ∨ (97 ≤ c ∧ c ≤ 102) ∨ (65 ≤ c ∧ c ≤ 70) := by simpa using h
    have e : (decide (48 ≤ c) && decide (c ≤ 57) || decide (65 ≤ c) && decide (c ≤ 70) ||
        decide (97 ≤ c) && decide (c ≤ 102)) = true := by
      simp only [Bool.or_eq_true, Bool.and_eq_true, decide_eq_true_eq]; omega
    rw [if_pos rfl, e]
    simp only [if_true]
    by_cases h1 : c ≤ 57
    · rw [if_pos h1, if_pos h1]; congr 1; omega
    · rw [if_neg h1, if_neg h1]
      by_cases h2 : c ≤ 70
      · rw [if_pos h2, if_pos (by omega)]; congr 1; omega
      · rw [if_neg h2, if_neg (by omega)]; congr 1; omega

theorem digit_none (hex : Bool) (c : Nat) (h : ¬ Digit hex c) : digit hex c = none := by
  unfold digit isXdigit isDigit
  unfold Digit DecDigit at h
  cases hex
  · have h' : ¬ (48 ≤ c ∧ c ≤ 57) := by simpa using h
    rw [if_neg (by decide), if_neg (by simpa using h')]
  · have h' : ¬ ((48 ≤ c ∧ c ≤ 57) ∨ (97 ≤ c ∧ c ≤ 102) ∨ (65 ≤ c ∧ c ≤ 70)) := by simpa using h
    rw [if_pos rfl, if_neg]
    simp only [Bool.or_eq_true, Bool.and_eq_true, decide_eq_true_eq]; omega

theorem isDigit_iff (c : Nat) : isDigit c = true ↔ DecDigit c := by
  simp [isDigit, DecDigit]

section
variable {T : Type} (ar : Arith T)

/-- The digits before the point, worked off from the left. -/
def intFold (hex : Bool) : List Nat → T → T
  | [], r => r
  | c :: s, r => intFold hex s (ar.add (ar.mul r (ar.ofInt (base hex))) (ar.ofInt (digitValue c)))

/-- The digits after the point, each divided by its place value. -/
def fracFold (hex : Bool) : List Nat → T → T → T
  | [], r, _ => r
  | c :: s, r, d =>
    fracFold hex s (ar.add r (ar.div (ar.ofInt (digitValue c)) d)) (ar.mul d (ar.ofInt (base hex)))

theorem intLoop_digits (hex : Bool) (rest : List Nat)
    (hr : ∀ c, rest.head? = some c → ¬ Digit hex c) :
    ∀ (ds : List Nat) (r : T), (∀ c ∈ ds, Digit hex c) →
      intLoop ar hex (ds ++ rest) r = (intFold ar hex ds r, rest)
  | [], r, _ => by
    cases rest with
    | nil => rfl
    | cons c s =>
      simp only [List.nil_append, intLoop, digit_none hex c (hr c rfl), intFold]
  | c :: ds, r, h => by
    simp only [List.cons_append, intLoop, digit_of hex c (h c (by simp)), intFold]
    exact intLoop_digits hex rest hr ds _ fun c hc => h c (by simp [hc])

theorem fracLoop_digits (hex : Bool) (rest : List Nat)
    (hr : ∀ c, rest.head? = some c → ¬ Digit hex c) :
    ∀ (ds : List Nat) (r d : T), (∀ c ∈ ds, Digit hex c) →
      fracLoop ar hex (ds ++ rest) r d = (fracFold ar hex ds r d, rest)
  | [], r, d, _ => by
    cases rest with
    | nil => rfl
    | cons c s =>
      simp only [List.nil_append, fracLoop, digit_none hex c (hr c rfl), fracFold]
  | c :: ds, r, d, h => by
    simp only [List.cons_append, fracLoop, digit_of hex c (h c (by simp)), fracFold]
    exact fracLoop_digits hex rest hr ds _ _ fun c hc => h c (by simp [hc])

theorem fold_ge (ds : List Nat) : ∀ e : Nat, e ≤ ds.foldl (fun v c => v * 10 + digitValue c) e := by
  induction ds with
  | nil => intro e; exact Nat.le_refl _
  | cons c ds ih => intro e; exact Nat.le_trans (Nat.le_trans (by omega : e ≤ e * 10) (Nat.le_add_right _ _)) (ih _)

theorem expLoop_digits (rest : List Nat) (hr : ∀ c, rest.head? = some c → ¬ DecDigit c) :
    ∀ (ds : List Nat) (e : Nat), (∀ c ∈ ds, DecDigit c) →
      ds.foldl (fun v c => v * 10 + digitValue c) e ≤ 2147483647 →
      expLoop (ds ++ rest) e = .ok ((ds.foldl (fun v c => v * 10 + digitValue c) e : Nat), rest)
  | [], e, _, _ => by
    cases rest with
    | nil => rfl
    | cons c s =>
      have : isDigit c = false := by
        rw [← Bool.not_eq_true, isDigit_iff]; exact hr c rfl
      simp [expLoop, this]
  | c :: ds, e, h, hb => by
    have hc : DecDigit c := h c (by simp)
    have hv : ((c : Int) - 48) = (digitValue c : Int) := by
      have := hc; unfold DecDigit at this; unfold digitValue; rw [if_pos this.2]; omega
    have hg := fold_ge ds (e * 10 + digitValue c)
    simp only [List.foldl_cons] at hb ⊢
    rw [List.cons_append, expLoop, if_pos ((isDigit_iff c).2 hc), hv,
      if_pos (by omega), if_pos (by omega)]
    have := expLoop_digits rest hr ds (e * 10 + digitValue c) (fun c hc => h c (by simp [hc])) hb
    rw [← this]; congr 1

/-- Overflow of the exponent is undefined behaviour. -/
theorem expLoop_overflow (rest : List Nat) :
    ∀ (ds : List Nat) (e : Nat), (∀ c ∈ ds, DecDigit c) → e ≤ 2147483647 →
      2147483647 < ds.foldl (fun v c => v * 10 + digitValue c) e →
      expLoop (ds ++ rest) e = .ub
  | [], e, _, he, hb => by simp at hb; omega
  | c :: ds, e, h, he, hb => by
    have hc : DecDigit c := h c (by simp)
    have hv : ((c : Int) - 48) = (digitValue c : Int) := by
      have := hc; unfold DecDigit at this; unfold digitValue; rw [if_pos this.2]; omega
    simp only [List.foldl_cons] at hb
    rw [List.cons_append, expLoop, if_pos ((isDigit_iff c).2 hc), hv]
    split
    · split
      · have := expLoop_overflow rest ds (e * 10 + digitValue c)
          (fun c hc => h c (by simp [hc])) (by omega) hb
        rw [← this]; congr 1
      · rfl
    · rfl

theorem isExpLetter_iff (hex : Bool) (c : Nat) : isExpLetter hex c = true ↔ ExpLetter hex c := by
  cases hex <;> simp [isExpLetter, ExpLetter]

theorem dropSign_sign (sg : List Nat) (d : Nat) (r : List Nat) (hs : SignText sg)
    (hd : DecDigit d) : dropSign (sg ++ d :: r) = d :: r := by
  unfold DecDigit at hd
  rcases hs with rfl | rfl | rfl
  · simp only [List.nil_append, dropSign]; rw [if_neg (by omega)]
  · simp [dropSign]
  · simp [dropSign]

theorem expPart_none (hex : Bool) (r : T) (rest : List Nat) (h : ¬ BeginsExponent hex rest) :
    expPart ar hex r rest = .ok (r, rest) := by
  cases rest with
  | nil => rfl
  | cons c s =>
    rw [expPart]
    split
    · rename_i hl
      have hl := (isExpLetter_iff hex c).1 hl
      cases hs : dropSign s with
      | nil => rfl
      | cons d t =>
        simp only
        split
        · rename_i hd
          exfalso; apply h
          have hd := (isDigit_iff d).1 hd
          cases s with
          | nil => simp [dropSign] at hs
          | cons x s =>
            rw [dropSign] at hs
            split at hs
            · rename_i hx
              subst hs
              refine ⟨c, [x], d, t, rfl, hl, ?_, hd⟩
              rcases hx with rfl | rfl
              · exact .inr (.inl rfl)
              · exact .inr (.inr rfl)
            · injection hs with h1 h2
              subst h1; subst h2
              exact ⟨c, [], x, s, rfl, hl, .inl rfl, hd⟩
        · rfl
    · rfl

theorem expPart_some (hex : Bool) (r : T) (l : Nat) (sg ds rest : List Nat)
    (hl : ExpLetter hex l) (hs : SignText sg) (hne : ds ≠ []) (hd : ∀ c ∈ ds, DecDigit c)
    (hr : ∀ c, rest.head? = some c → ¬ DecDigit c)
    (hb : digitsValue 10 ds ≤ 2147483647) :
    expPart ar hex r (l :: (sg ++ ds) ++ rest) =
      .ok (scale ar hex (sg == [45]) (digitsValue 10 ds) r, rest) := by
  obtain ⟨d, ds', rfl⟩ : ∃ d ds', ds = d :: ds' := by
    cases ds with
    | nil => exact absurd rfl hne
    | cons d ds' => exact ⟨d, ds', rfl⟩
  have e : l :: (sg ++ d :: ds') ++ rest = l :: (sg ++ d :: (ds' ++ rest)) := by simp
  have hdd : DecDigit d := hd d (by simp)
  rw [e, expPart, if_pos ((isExpLetter_iff hex l).2 hl), dropSign_sign sg d _ hs hdd]
  simp only
  rw [if_pos ((isDigit_iff d).2 hdd)]
  have h0 := expLoop_digits rest hr (d :: ds') 0 hd hb
  have h1 : expLoop (d :: (ds' ++ rest)) 0 = .ok ((digitsValue 10 (d :: ds') : Nat), rest) := h0
  rw [h1]
  have h2 : ((sg ++ d :: (ds' ++ rest)).head? == some 45) = (sg == [45]) := by
    unfold DecDigit at hdd
    rcases hs with rfl | rfl | rfl
    · have : d ≠ 45 := by omega
      simp [this]
    · simp
    · simp
  rw [h2]
  simp [Res.bind]

/-- The digits after the point, if there is one. -/
def fracApply (hex : Bool) (i : T) : Option (List Nat) → T
  | none => i
  | some f => fracFold ar hex f i (ar.ofInt (base hex))

/-- The exponent, if there is one. -/
def expApply (hex : Bool) (f : T) : Option (Nat × List Nat × List Nat) → T
  | none => f
  | some (_, s, ds) => scale ar hex (s == [45]) (digitsValue 10 ds) f

/-- What the code computes for a numeral, in the arithmetic `ar`. -/
def computed (n : Numeral) : T :=
  let i := intFold ar n.hex n.int (ar.ofInt 0)
  let e := expApply ar n.hex (fracApply ar n.hex i n.frac) n.exp
  if n.sign == [45] then ar.neg e else e

theorem isPrefixOf_append (dp s : List Nat) : dp.isPrefixOf (dp ++ s) = true := by
  rw [List.isPrefixOf_iff_prefix]; exact List.prefix_append _ _

/-- The part after the sign and the `0x`. -/
theorem number_numeral (dp : List Nat) (n : Numeral) (rest : List Nat) (hw : n.WF)
    (he : n.Ends dp rest) (hdp : GoodPoint dp) (hb : expAbs n.exp ≤ 2147483647) :
    number ar n.hex (n.sign == [45]) dp
      (n.int ++ fracText dp n.frac
        ++ expText n.exp ++ rest) =
      .ok (computed ar n, rest) := by
  obtain ⟨hex, sign, pre, int, frac, exp⟩ := n
  obtain ⟨-, -, hint, hfrac, -, hexp⟩ := hw
  obtain ⟨e1, e2, e3, e4, -⟩ := he
  obtain ⟨p, dr, rfl, hp1, hp2, hp3, hp4, hp5⟩ := hdp
  simp only at *
  have hpd : ¬ Digit hex p := by
    unfold Digit DecDigit
    rintro (h | ⟨-, h⟩) <;> omega
  -- the text of the exponent and what follows
  have hE : ∃ E : List Nat, E = expText exp ++ rest
      ∧ (∀ c, E.head? = some c → ¬ Digit hex c)
      ∧ (frac = none → ¬ (p :: dr) <+: E)
      ∧ ∀ r : T, expPart ar hex r E = .ok (expApply ar hex r exp, rest) := by
    refine ⟨_, rfl, ?_, ?_, ?_⟩
    · cases exp with
      | none => simpa [expText] using e2 rfl
      | some x =>
        obtain ⟨l, s, ds⟩ := x
        intro c hc
        have : l = c := by simpa [expText] using hc
        subst this
        have hl := (hexp _ _ _ rfl).1
        unfold Digit DecDigit
        unfold ExpLetter at hl
        rcases hl with ⟨h1, h2⟩ | ⟨h1, h2⟩ <;> rw [h1] <;> simp <;> omega
    · intro hf
      cases exp with
      | none => simpa [expText] using e4 rfl hf
      | some x =>
        obtain ⟨l, s, ds⟩ := x
        rintro ⟨t, ht⟩
        have hpl : p = l := (List.cons.inj ht).1
        have hl := (hexp _ _ _ rfl).1
        unfold ExpLetter at hl
        omega
    · intro r
      cases exp with
      | none => simpa [expText, expApply] using expPart_none ar hex r rest (e3 rfl)
      | some x =>
        obtain ⟨l, s, ds⟩ := x
        obtain ⟨h1, h2, h3, h4⟩ := hexp _ _ _ rfl
        exact expPart_some ar hex r l s ds rest h1 h2 h3 h4 (e1 (by simp)) hb
  obtain ⟨E, hEq, hEd, hEp, hEx⟩ := hE
  rw [List.append_assoc, ← hEq]
  unfold number computed
  cases frac with
  | none =>
    simp only [fracText, List.append_nil]
    rw [intLoop_digits ar hex E hEd int _ hint]
    have : (p :: dr).isPrefixOf E = false := by
      rw [← Bool.not_eq_true, List.isPrefixOf_iff_prefix]; exact hEp rfl
    simp only [fracPart, this]
    rw [if_neg (by decide), hEx]
    rfl
  | some f =>
    simp only [fracText]
    rw [List.append_assoc, intLoop_digits ar hex _ _ int _ hint]
    · simp only [fracPart]
      rw [List.append_assoc, isPrefixOf_append, if_pos rfl, List.drop_left,
        fracLoop_digits ar hex E hEd f _ _ (hfrac f rfl), hEx]
      rfl
    · intro c hc
      have : p = c := by simpa using hc
      exact this ▸ hpd

theorem dropWhile_ws (space : Nat → Bool) (ws s : List Nat) (hws : ∀ c ∈ ws, space c = true)
    (hs : ∀ c, s.head? = some c → space c = false) : (ws ++ s).dropWhile space = s := by
  induction ws with
  | nil =>
    cases s with
    | nil => rfl
    | cons c t => simp [hs c rfl]
  | cons c ws ih =>
    simp only [List.cons_append, List.dropWhile_cons, hws c (by simp), if_true]
    exact ih fun c hc => hws c (by simp [hc])

/-- **Every numeral is read to its end.**  White space, then a numeral as C defines it, then
anything that does not continue it: in every arithmetic, the end pointer is the place right after the
numeral, and the number returned is the one `computed` from its digits. -/
theorem strtofp_numeral (space : Nat → Bool) (dp ws rest : List Nat) (n : Numeral) (hw : n.WF)
    (he : n.Ends dp rest) (hdp : GoodPoint dp) (hsp : GoodSpace space dp)
    (hws : ∀ c ∈ ws, space c = true) (hb : expAbs n.exp ≤ 2147483647) :
    strtofp ar space dp (ws ++ n.text dp ++ rest) = .ok (computed ar n, rest) := by
  have hnum := number_numeral ar dp n rest hw he hdp hb
  generalize hB : n.int ++ fracText dp n.frac
        ++ expText n.exp ++ rest = B at hnum
  have hText : ws ++ n.text dp ++ rest = ws ++ (n.sign ++ (n.pre ++ B)) := by
    rw [← hB]; unfold Numeral.text; simp only [List.append_assoc]
  obtain ⟨p, dr, hpe, hp1, hp2, hp3, hp4, hp5⟩ := hdp
  -- the first character of the body
  have hhead : ∃ c t, n.pre ++ B = c :: t ∧ (DecDigit c ∨ c = p) ∧
      (n.hex = false → hexPrefix (c :: t) = false) := by
    rcases hw.pre with ⟨h1, h2⟩ | ⟨h1, h2 | h2⟩
    · rw [h2, List.nil_append, ← hB]
      have hint := hw.int
      have hnohex := he.nohex h1
      have hexp := hw.exp
      rw [h1] at hint hexp
      cases hi : n.int with
      | nil =>
        rcases hw.digits with hd | ⟨x, f, hf⟩
        · exact absurd hi hd
        · rw [hf, hpe]
          refine ⟨p, _, rfl, .inr rfl, fun _ => ?_⟩
          unfold hexPrefix
          split
          · rename_i heq; injection heq with h _; omega
          · rename_i heq; injection heq with h _; omega
          · rfl
      | cons c int' =>
        have hc : DecDigit c := by
          have := hint c (by rw [hi]; simp)
          unfold Digit at this; simpa using this
        refine ⟨c, _, rfl, .inl hc, fun _ => ?_⟩
        -- the second character is not an `x`
        have key : ∀ t, (∀ y, t.head? = some y → c = 48 → y ≠ 120 ∧ y ≠ 88) →
            hexPrefix (c :: t) = false := by
          intro t ht
          unfold hexPrefix
          split
          · rename_i heq; injection heq with h h'; exact absurd rfl (ht 120 (by rw [h']; rfl) h).1
          · rename_i heq; injection heq with h h'; exact absurd rfl (ht 88 (by rw [h']; rfl) h).2
          · rfl
        apply key
        intro y hy h48
        cases hi' : int' with
        | cons d int'' =>
          have hd : DecDigit d := by
            have := hint d (by rw [hi, hi']; simp)
            unfold Digit at this; simpa using this
          rw [hi'] at hy
          have : d = y := by simpa using hy
          unfold DecDigit at hd
          omega
        | nil =>
          rw [hi'] at hy
          cases hf : n.frac with
          | some f =>
            rw [hf, hpe] at hy
            have : p = y := by simpa [fracText] using hy
            omega
          | none =>
            rw [hf] at hy
            cases hx : n.exp with
            | some x =>
              obtain ⟨l, s, ds⟩ := x
              rw [hx] at hy
              have : l = y := by simpa [expText, fracText] using hy
              have hl := (hexp _ _ _ hx).1
              unfold ExpLetter at hl
              simp at hl
              omega
            | none =>
              rw [hx] at hy
              exact hnohex (by rw [hi, hi', h48]) hx hf y (by simpa [expText, fracText] using hy)
    · rw [h2]; exact ⟨48, _, rfl, .inl ⟨by decide, by decide⟩, fun h => by rw [h1] at h; cases h⟩
    · rw [h2]; exact ⟨48, _, rfl, .inl ⟨by decide, by decide⟩, fun h => by rw [h1] at h; cases h⟩
  obtain ⟨c, t, hct, hc, hnx⟩ := hhead
  have hcr : c ≠ 43 ∧ c ≠ 45 ∧ ¬ (65 ≤ c ∧ c ≤ 90) ∧ ¬ (97 ≤ c ∧ c ≤ 122) ∧ space c = false := by
    have hspc : space c = false := by
      rw [← Bool.not_eq_true]; intro h
      obtain ⟨g1, g2, g3, g4, g5, g6⟩ := hsp c h
      rcases hc with hc | hc
      · exact g1 hc
      · apply g6; rw [hpe, hc]; rfl
    unfold DecDigit at hc
    refine ⟨by omega, by omega, by omega, by omega, hspc⟩
  have hspace : ∀ x, (n.sign ++ (n.pre ++ B)).head? = some x → space x = false := by
    intro x hx
    rcases hw.sign with h | h | h
    · rw [h, hct] at hx
      have : c = x := by simpa using hx
      rw [← this]; exact hcr.2.2.2.2
    · rw [h] at hx
      have : 43 = x := by simpa using hx
      rw [← this, ← Bool.not_eq_true]; intro h'; exact (hsp _ h').2.2.2.1 rfl
    · rw [h] at hx
      have : 45 = x := by simpa using hx
      rw [← this, ← Bool.not_eq_true]; intro h'; exact (hsp _ h').2.2.2.2.1 rfl
  have hneg : ((n.sign ++ (n.pre ++ B)).head? == some 45) = (n.sign == [45]) := by
    rcases hw.sign with h | h | h
    · rw [h, hct]; simp [hcr.2.1]
    · rw [h]; rfl
    · rw [h]; rfl
  have hds : dropSign (n.sign ++ (n.pre ++ B)) = n.pre ++ B := by
    rcases hw.sign with h | h | h
    · rw [h, hct]; simp [dropSign, hcr.1, hcr.2.1]
    · rw [h]; simp [dropSign]
    · rw [h]; simp [dropSign]
  rw [hText]
  unfold strtofp
  simp only
  rw [dropWhile_ws space ws _ hws hspace, hneg, hds]
  have w1 : ∀ w x, w = x :: w.tail → ((65 ≤ x ∧ x ≤ 90) ∨ (97 ≤ x ∧ x ≤ 122)) → n.pre ++ B ≠ w := by
    intro w x hw' hx h
    rw [hct, hw'] at h
    injection h with h _
    omega
  have w2 : ∀ w x, w = x :: w.tail → ((65 ≤ x ∧ x ≤ 90) ∨ (97 ≤ x ∧ x ≤ 122)) →
      ¬ (w.isPrefixOf (n.pre ++ B) = true) := by
    intro w x hw' hx h
    rw [List.isPrefixOf_iff_prefix, hct, hw'] at h
    obtain ⟨u, hu⟩ := h
    injection hu with h _
    omega
  rw [if_neg (by
    rintro (h | h)
    · exact w1 (txt "INF") 73 (by decide) (by omega) h
    · exact w1 (txt "inf") 105 (by decide) (by omega) h)]
  rw [if_neg (by
    rintro (h | h)
    · exact w1 (txt "INFINITY") 73 (by decide) (by omega) h
    · exact w1 (txt "infinity") 105 (by decide) (by omega) h)]
  rw [if_neg (by
    rintro (h | h)
    · exact w2 (txt "NAN") 78 (by decide) (by omega) h
    · exact w2 (txt "nan") 110 (by decide) (by omega) h)]
  rcases hw.pre with ⟨h1, h2⟩ | ⟨h1, h2⟩
  · rw [hct, hnx h1, if_neg (by decide), ← hct, h2, List.nil_append, ← h1]
    exact hnum
  · have : hexPrefix (n.pre ++ B) = true := by
      rcases h2 with h | h <;> rw [h] <;> rfl
    rw [this, if_pos rfl]
    have : (n.pre ++ B).drop 2 = B := by
      rcases h2 with h | h <;> rw [h] <;> rfl
    rw [this, ← h1]
    exact hnum

/-- The infinities: the whole rest of the string must be the word, in lower or in upper case. -/
theorem strtofp_inf_partial (space : Nat → Bool) (dp ws sign w : List Nat)
    (hsp : GoodSpace space dp) (hws : ∀ c ∈ ws, space c = true) (hs : SignText sign)
    (hw : w = txt "inf" ∨ w = txt "INF" ∨ w = txt "infinity" ∨ w = txt "INFINITY") :
    strtofp ar space dp (ws ++ (sign ++ w)) =
      .ok (if sign = [45] then ar.neg ar.inf else ar.inf, []) := by
  have hsc : ∀ c, (48 ≤ c ∧ c ≤ 57) ∨ (65 ≤ c ∧ c ≤ 90) ∨ (97 ≤ c ∧ c ≤ 122) ∨ c = 43 ∨ c = 45 →
      space c = false := by
    intro c hc
    rw [← Bool.not_eq_true]; intro h
    obtain ⟨g1, g2, g3, g4, g5, -⟩ := hsp c h
    omega
  obtain ⟨c, t, hct, hc⟩ : ∃ c t, w = c :: t ∧ ((65 ≤ c ∧ c ≤ 90) ∨ (97 ≤ c ∧ c ≤ 122)) := by
    rcases hw with rfl | rfl | rfl | rfl
    · exact ⟨105, txt "nf", by decide, by omega⟩
    · exact ⟨73, txt "NF", by decide, by omega⟩
    · exact ⟨105, txt "nfinity", by decide, by omega⟩
    · exact ⟨73, txt "NFINITY", by decide, by omega⟩
  unfold strtofp
  simp only
  have h1 : (ws ++ (sign ++ w)).dropWhile space = sign ++ w := by
    apply dropWhile_ws space ws _ hws
    intro x hx
    apply hsc
    rcases hs with rfl | rfl | rfl
    · rw [hct] at hx
      have : c = x := by simpa using hx
      omega
    · have : 43 = x := by simpa using hx
      omega
    · have : 45 = x := by simpa using hx
      omega
  have h2 : dropSign (sign ++ w) = w := by
    rcases hs with rfl | rfl | rfl
    · rw [hct, List.nil_append, dropSign, if_neg (by omega)]
    · simp [dropSign]
    · simp [dropSign]
  have h3 : ((sign ++ w).head? == some 45) = (sign == [45]) := by
    rcases hs with rfl | rfl | rfl
    · rw [hct]
      have : c ≠ 45 := by omega
      simp [this]
    · rfl
    · rfl
  rw [h1, h2, h3]
  have h4 : (if (sign == [45]) = true then ar.neg ar.inf else ar.inf) =
      if sign = [45] then ar.neg ar.inf else ar.inf := by
    simp only [beq_iff_eq]
  rw [h4]
  rcases hw with rfl | rfl | rfl | rfl
  · rw [if_pos (by decide)]; rfl
  · rw [if_pos (by decide)]; rfl
  · rw [if_neg (by decide), if_pos (by decide)]; rfl
  · rw [if_neg (by decide), if_pos (by decide)]; rfl

/-- The NaNs: the word in lower or in upper case, anything after it. -/
theorem strtofp_nan_partial (space : Nat → Bool) (dp ws sign w rest : List Nat)
    (hsp : GoodSpace space dp) (hws : ∀ c ∈ ws, space c = true) (hs : SignText sign)
    (hw : w = txt "nan" ∨ w = txt "NAN") :
    strtofp ar space dp (ws ++ (sign ++ (w ++ rest))) =
      .ok (if sign = [45] then ar.neg ar.nan else ar.nan, rest) := by
  have hsc : ∀ c, (48 ≤ c ∧ c ≤ 57) ∨ (65 ≤ c ∧ c ≤ 90) ∨ (97 ≤ c ∧ c ≤ 122) ∨ c = 43 ∨ c = 45 →
      space c = false := by
    intro c hc
    rw [← Bool.not_eq_true]; intro h
    obtain ⟨g1, g2, g3, g4, g5, -⟩ := hsp c h
    omega
  have hw' : (w = [110, 97, 110] ∨ w = [78, 65, 78]) := by
    rcases hw with rfl | rfl
    · left; decide
    · right; decide
  obtain ⟨c, t, hct, hc⟩ : ∃ c t, w ++ rest = c :: t ∧ (c = 78 ∨ c = 110) := by
    rcases hw' with rfl | rfl
    · exact ⟨110, _, rfl, by omega⟩
    · exact ⟨78, _, rfl, by omega⟩
  unfold strtofp
  simp only
  have h1 : (ws ++ (sign ++ (w ++ rest))).dropWhile space = sign ++ (w ++ rest) := by
    apply dropWhile_ws space ws _ hws
    intro x hx
    apply hsc
    rcases hs with rfl | rfl | rfl
    · rw [hct] at hx
      have : c = x := by simpa using hx
      omega
    · have : 43 = x := by simpa using hx
      omega
    · have : 45 = x := by simpa using hx
      omega
  have h2 : dropSign (sign ++ (w ++ rest)) = w ++ rest := by
    rcases hs with rfl | rfl | rfl
    · rw [hct, List.nil_append, dropSign, if_neg (by omega)]
    · simp [dropSign]
    · simp [dropSign]
  have h3 : ((sign ++ (w ++ rest)).head? == some 45) = (sign == [45]) := by
    rcases hs with rfl | rfl | rfl
    · rw [hct]
      have : c ≠ 45 := by omega
      simp [this]
    · rfl
    · rfl
  rw [h1, h2, h3]
  have h4 : (if (sign == [45]) = true then ar.neg ar.nan else ar.nan) =
      if sign = [45] then ar.neg ar.nan else ar.nan := by
    simp only [beq_iff_eq]
  rw [h4]
  have w1 : ∀ w' x, w' = x :: w'.tail → (x = 73 ∨ x = 105) → w ++ rest ≠ w' := by
    intro w' x hw'' hx h
    rw [hct, hw''] at h
    injection h with h _
    omega
  rw [if_neg (by
    rintro (h | h)
    · exact w1 (txt "INF") 73 (by decide) (by omega) h
    · exact w1 (txt "inf") 105 (by decide) (by omega) h)]
  rw [if_neg (by
    rintro (h | h)
    · exact w1 (txt "INFINITY") 73 (by decide) (by omega) h
    · exact w1 (txt "infinity") 105 (by decide) (by omega) h)]
  rw [if_pos (by
    rw [List.isPrefixOf_iff_prefix, List.isPrefixOf_iff_prefix]
    rcases hw with rfl | rfl
    · exact .inr (List.prefix_append _ _)
    · exact .inl (List.prefix_append _ _))]
  rcases hw' with rfl | rfl <;> rfl

/-- An exponent that does not fit an `int` is undefined behaviour, whatever precedes it: here
after a zero, whose value no exponent changes. -/
theorem exponent_overflow_violated (dp ds rest : List Nat) (hne : ds ≠ [])
    (hd : ∀ c ∈ ds, DecDigit c) (hb : 2147483647 < digitsValue 10 ds) (hdp : GoodPoint dp) :
    strtofp ar cspace dp (48 :: 101 :: (ds ++ rest)) = .ub := by
  obtain ⟨p, dr, rfl, hp1, hp2, hp3, hp4, hp5⟩ := hdp
  obtain ⟨d, ds', rfl⟩ : ∃ d ds', ds = d :: ds' := by
    cases ds with
    | nil => exact absurd rfl hne
    | cons d ds' => exact ⟨d, ds', rfl⟩
  have hdd : DecDigit d := hd d (by simp)
  have h1 : (48 :: 101 :: (d :: ds' ++ rest)).dropWhile cspace = 48 :: 101 :: (d :: ds' ++ rest) := by
    rw [List.dropWhile_cons, if_neg (by decide)]
  have h2 : dropSign (48 :: 101 :: (d :: ds' ++ rest)) = 48 :: 101 :: (d :: ds' ++ rest) := by
    rw [dropSign, if_neg (by omega)]
  unfold strtofp
  simp only
  rw [h1, h2]
  have w1 : ∀ w' x, w' = x :: w'.tail → x ≠ 48 → (48 :: 101 :: (d :: ds' ++ rest)) ≠ w' := by
    intro w' x hw'' hx h
    rw [hw''] at h
    injection h with h _
    omega
  have w2 : ∀ w x, w = x :: w.tail → x ≠ 48 →
      ¬ (w.isPrefixOf (48 :: 101 :: (d :: ds' ++ rest)) = true) := by
    intro w x hw' hx h
    rw [List.isPrefixOf_iff_prefix, hw'] at h
    obtain ⟨u, hu⟩ := h
    injection hu with h _
    omega
  rw [if_neg (by
    rintro (h | h)
    · exact w1 (txt "INF") 73 (by decide) (by omega) h
    · exact w1 (txt "inf") 105 (by decide) (by omega) h)]
  rw [if_neg (by
    rintro (h | h)
    · exact w1 (txt "INFINITY") 73 (by decide) (by omega) h
    · exact w1 (txt "infinity") 105 (by decide) (by omega) h)]
  rw [if_neg (by
    rintro (h | h)
    · exact w2 (txt "NAN") 78 (by decide) (by omega) h
    · exact w2 (txt "nan") 110 (by decide) (by omega) h)]
  rw [if_neg (by
    intro h
    unfold hexPrefix at h
    split at h
    · rename_i heq; injection heq with _ h; injection h with h _; omega
    · rename_i heq; injection heq with _ h; injection h with h _; omega
    · cases h)]
  unfold number
  have i1 := intLoop_digits ar false (101 :: (d :: ds' ++ rest)) (by
    intro c hc
    have : 101 = c := by simpa using hc
    subst this
    unfold Digit DecDigit; simp) [48] (ar.ofInt 0) (by
      intro c hc
      have : c = 48 := by simpa using hc
      subst this
      exact .inl ⟨by decide, by decide⟩)
  rw [List.singleton_append] at i1
  rw [i1]
  simp only
  have i2 : (p :: dr).isPrefixOf (101 :: (d :: ds' ++ rest)) = false := by
    rw [← Bool.not_eq_true, List.isPrefixOf_iff_prefix]
    rintro ⟨u, hu⟩
    injection hu with h _
    omega
  rw [fracPart, i2, if_neg (by decide)]
  rw [expPart, if_pos (by decide)]
  have i3 := dropSign_sign [] d (ds' ++ rest) (.inl rfl) hdd
  rw [List.nil_append] at i3
  rw [List.cons_append, i3]
  simp only
  rw [if_pos ((isDigit_iff d).2 hdd)]
  have i4 := expLoop_overflow rest (d :: ds') 0 hd (by omega) hb
  have i5 : expLoop (d :: (ds' ++ rest)) 0 = .ub := i4
  rw [i5]
  rfl

end

example : (∀ c ∈ txt "2147483648", DecDigit c) ∧ 2147483647 < digitsValue 10 (txt "2147483648") := by
  unfold DecDigit; decide

end Mlibc.Strtod
