import Verif.Regex.Model

/-!
# The matcher finds exactly the states that the automaton can reach
-/
namespace Mlibc.Regex

/-- The state `q` can be reached from an initial state entered at index `i`, having read the characters
    from `i` up to `k`. -/
inductive Path (x : Ctx) (T : Tnfa) (i : Nat) : Nat → Nat → Prop
  | start {q as} : (q, as) ∈ T.initial → (∀ a ∈ as, Holds x i a) → Path x T i q i
  | step {q k c t} : Path x T i q k → (q, t) ∈ T.trans → x.str[k]? = some c → t.lit.Allows x c →
      (∀ a ∈ t.as, Holds x (k + 1) a) → Path x T i t.tgt (k + 1)

/-- `prev` is the character before index `i`; 0 at the start. -/
def PrevIs (x : Ctx) (i prev : Nat) : Prop := (i = 0 ∧ prev = 0) ∨ ∃ k, i = k + 1 ∧ x.str[k]? = some prev

theorem isWord_iff (x : Ctx) (c : Nat) : isWord x c = true ↔ IsWord x c := by
  simp [isWord, IsWord]

theorem wordBefore_iff {x : Ctx} (hx : x.Ok) {i prev : Nat} (hp : PrevIs x i prev) :
    WordBefore x i ↔ isWord x prev = true := by
  rw [isWord_iff]
  rcases hp with ⟨rfl, rfl⟩ | ⟨k, rfl, hk⟩
  · constructor
    · rintro ⟨k, c, h, -⟩; omega
    · rintro (h | h)
      · omega
      · rw [hx.alnum0] at h; cases h
  · constructor
    · rintro ⟨k', c, h, hc, hw⟩
      have : k' = k := by omega
      subst this
      rw [hk] at hc; cases hc; exact hw
    · intro h; exact ⟨k, prev, rfl, hk, h⟩

theorem wordAt_iff {x : Ctx} (hx : x.Ok) (i : Nat) :
    WordAt x i ↔ isWord x (x.str[i]?.getD 0) = true := by
  rw [isWord_iff]
  cases h : x.str[i]? with
  | none =>
    simp only [Option.getD_none]
    constructor
    · rintro ⟨c, hc, -⟩; rw [h] at hc; cases hc
    · rintro (h | h)
      · omega
      · rw [hx.alnum0] at h; cases h
  | some c =>
    simp only [Option.getD_some]
    constructor
    · rintro ⟨c', hc, hw⟩; rw [h] at hc; cases hc; exact hw
    · intro hw; exact ⟨c, h, hw⟩

theorem next_zero_iff {x : Ctx} (hx : x.Ok) {i : Nat} (hi : i ≤ x.str.length) :
    x.str[i]?.getD 0 = 0 ↔ i = x.str.length := by
  cases h : x.str[i]? with
  | none => rw [List.getElem?_eq_none_iff] at h; simp; omega
  | some c =>
    have hc := hx.nz c (List.mem_of_getElem? h)
    have : i < x.str.length := by
      rcases Nat.lt_or_ge i x.str.length with h' | h'
      · exact h'
      · rw [List.getElem?_eq_none_iff.2 h'] at h; cases h
    simp [hc]; omega

theorem next_nl_iff (x : Ctx) (i : Nat) : x.str[i]?.getD 0 = 10 ↔ x.str[i]? = some 10 := by
  cases x.str[i]? <;> simp

theorem prev_nl_iff {x : Ctx} {i prev : Nat} (hp : PrevIs x i prev) :
    prev = 10 ↔ ∃ k, i = k + 1 ∧ x.str[k]? = some 10 := by
  rcases hp with ⟨rfl, rfl⟩ | ⟨k, rfl, hk⟩
  · simp
  · constructor
    · rintro rfl; exact ⟨k, rfl, hk⟩
    · rintro ⟨k', h, hk'⟩
      have : k' = k := by omega
      subst this; rw [hk] at hk'; cases hk'; rfl

/-- `CHECK_ASSERTIONS` decides whether the assertion holds. -/
theorem violated_iff {x : Ctx} (hx : x.Ok) {i prev : Nat} (hi : i ≤ x.str.length) (hp : PrevIs x i prev)
    (a : Asrt) : violated x i prev (x.str[i]?.getD 0) a = false ↔ Holds x i a := by
  have hb := wordBefore_iff hx hp
  have ha := wordAt_iff hx i
  have hz := next_zero_iff hx hi
  have hn := next_nl_iff x i
  have hpn := prev_nl_iff hp
  cases a with
  | bol =>
    simp only [Holds, ← hpn, violated]
    by_cases h0 : i = 0
    · subst h0
      have : prev ≠ 10 := by
        rcases hp with ⟨-, h⟩ | ⟨k, h, -⟩ <;> omega
      cases x.notbol <;> cases x.newline <;> simp [this]
    · cases x.notbol <;> cases x.newline <;> simp [h0] <;> omega
  | eol =>
    simp only [Holds, ← hz, ← hn, violated]
    generalize x.str[i]?.getD 0 = n
    cases x.noteol <;> cases x.newline <;> simp <;> omega
  | bow =>
    simp only [Holds, hb, ha, violated]
    cases isWord x prev <;> cases isWord x (x.str[i]?.getD 0) <;> simp
  | eow =>
    simp only [Holds, hb, ha, violated]
    cases isWord x prev <;> cases isWord x (x.str[i]?.getD 0) <;> simp
  | wb =>
    simp only [Holds, hb, ha, ← hz, violated]
    cases isWord x prev <;> cases isWord x (x.str[i]?.getD 0) <;> simp <;> omega
  | nwb =>
    simp only [Holds, hb, ha, ne_eq, ← hz, violated]
    cases isWord x prev <;> cases isWord x (x.str[i]?.getD 0) <;> simp <;> omega

theorem negClasses_iff (x : Ctx) (c : Nat) (ks : List Nat) :
    negClassesMatch x c ks = false ↔ ∀ k ∈ ks, ¬ InClass x c k := by
  induction ks with
  | nil => simp [negClassesMatch]
  | cons k r ih =>
    unfold negClassesMatch InClass
    simp only [List.mem_cons, forall_eq_or_imp]
    cases hi : x.icase
    · cases x.isctype c k <;> simp [ih, InClass, hi]
    · cases x.isctype (x.lower c) k <;> cases x.isctype (x.upper c) k <;> simp [ih, InClass, hi]

/-- The range and class checks decide whether the item allows the character. -/
theorem allows_iff (x : Ctx) (l : Lit) (c : Nat) :
    ((l.lo ≤ c ∧ l.hi ≥ c) ∧ classesViolated x c l = false) ↔ l.Allows x c := by
  unfold classesViolated Lit.Allows
  have hn := negClasses_iff x c l.neg
  have hne : (!l.neg.isEmpty && negClassesMatch x c l.neg) = false ↔ ∀ k ∈ l.neg, ¬ InClass x c k := by
    rw [← hn]
    cases hl : l.neg with
    | nil => simp [negClassesMatch]
    | cons => simp
  rw [Bool.or_eq_false_iff, hne]
  have hc : ((l.cls != 0 && !x.icase && !x.isctype c l.cls)
      || (l.cls != 0 && x.icase && !x.isctype (x.lower c) l.cls && !x.isctype (x.upper c) l.cls)) = false
      ↔ (l.cls ≠ 0 → InClass x c l.cls) := by
    unfold InClass
    by_cases h0 : l.cls = 0
    · simp [h0]
    · cases hi : x.icase
      · simp [h0]
      · cases x.isctype (x.lower c) l.cls <;> cases x.isctype (x.upper c) l.cls <;> simp [h0]
  rw [hc]
  constructor
  · rintro ⟨⟨h1, h2⟩, h3, h4⟩; exact ⟨h1, h2, h3, h4⟩
  · rintro ⟨h1, h2, h3, h4⟩; exact ⟨⟨h1, h2⟩, h3, h4⟩

/-- What `addInitial` adds. -/
theorem addInitial_spec (x : Ctx) (pos prev next final : Nat) (l : List First) :
    ∀ s : List Nat × Bool,
      (∀ q, q ∈ (addInitial x pos prev next final l s).1 ↔ q ∈ s.1 ∨
        ∃ as, (q, as) ∈ l ∧ ∀ a ∈ as, violated x pos prev next a = false) ∧
      ((final ∈ s.1 → s.2 = true) →
        ((addInitial x pos prev next final l s).2 = true ↔
          s.2 = true ∨ final ∈ (addInitial x pos prev next final l s).1)) := by
  induction l with
  | nil =>
    intro s
    simp only [addInitial]
    refine ⟨by simp, fun h => ⟨Or.inl, fun h' => h'.elim id h⟩⟩
  | cons f r ih =>
    intro s
    obtain ⟨q0, as0⟩ := f
    unfold addInitial
    by_cases h1 : q0 ∈ s.1
    · rw [if_pos h1]
      refine ⟨fun q => ?_, (ih s).2⟩
      rw [(ih s).1 q]
      constructor
      · rintro (h | ⟨as, h, h'⟩)
        · exact Or.inl h
        · exact Or.inr ⟨as, List.mem_cons_of_mem _ h, h'⟩
      · rintro (h | ⟨as, h, h'⟩)
        · exact Or.inl h
        · rcases List.mem_cons.1 h with h | h
          · cases h; exact Or.inl h1
          · exact Or.inr ⟨as, h, h'⟩
    · rw [if_neg h1]
      by_cases h2 : as0.any (violated x pos prev next) = true
      · rw [if_pos h2]
        refine ⟨fun q => ?_, (ih s).2⟩
        rw [(ih s).1 q]
        constructor
        · rintro (h | ⟨as, h, h'⟩)
          · exact Or.inl h
          · exact Or.inr ⟨as, List.mem_cons_of_mem _ h, h'⟩
        · rintro (h | ⟨as, h, h'⟩)
          · exact Or.inl h
          · rcases List.mem_cons.1 h with h | h
            · cases h
              obtain ⟨a, ha, hv⟩ := List.any_eq_true.1 h2
              rw [h' a ha] at hv; cases hv
            · exact Or.inr ⟨as, h, h'⟩
      · rw [if_neg h2]
        have h2' : ∀ a ∈ as0, violated x pos prev next a = false := by
          intro a ha
          cases hv : violated x pos prev next a
          · rfl
          · exact absurd (List.any_eq_true.2 ⟨a, ha, hv⟩) h2
        obtain ⟨i1, i2⟩ := ih (s.1 ++ [q0], s.2 || q0 == final)
        refine ⟨fun q => ?_, fun hs => ?_⟩
        · rw [i1 q]
          constructor
          · rintro (h | ⟨as, h, h'⟩)
            · rcases List.mem_append.1 h with h | h
              · exact Or.inl h
              · cases List.mem_singleton.1 h
                exact Or.inr ⟨as0, List.mem_cons_self, h2'⟩
            · exact Or.inr ⟨as, List.mem_cons_of_mem _ h, h'⟩
          · rintro (h | ⟨as, h, h'⟩)
            · exact Or.inl (List.mem_append_left _ h)
            · rcases List.mem_cons.1 h with h | h
              · cases h; exact Or.inl (List.mem_append_right _ (List.mem_singleton.2 rfl))
              · exact Or.inr ⟨as, h, h'⟩
        · rw [i2 (by
            intro h
            rcases List.mem_append.1 h with h | h
            · simp [hs h]
            · simp [List.mem_singleton.1 h])]
          constructor
          · rintro (h | h)
            · rcases Bool.or_eq_true_iff.1 h with h | h
              · exact Or.inl h
              · refine Or.inr ((i1 final).2 (Or.inl ?_))
                rw [← eq_of_beq h]
                exact List.mem_append_right _ (List.mem_singleton.2 rfl)
            · exact Or.inr h
          · rintro (h | h)
            · exact Or.inl (by simp [h])
            · exact Or.inr h

/-- The transition may be taken. -/
def Takes (x : Ctx) (pos prev next : Nat) (t : Trans) : Prop :=
  (t.lit.lo ≤ prev ∧ t.lit.hi ≥ prev) ∧ classesViolated x prev t.lit = false ∧
    ∀ a ∈ t.as, violated x pos prev next a = false

/-- What `addTrans` adds. -/
theorem addTrans_spec (x : Ctx) (pos prev next final : Nat) (l : List Trans) :
    ∀ s : List Nat × Bool,
      (∀ q, q ∈ (addTrans x pos prev next final l s).1 ↔ q ∈ s.1 ∨
        ∃ t ∈ l, t.tgt = q ∧ Takes x pos prev next t) ∧
      ((final ∈ s.1 → s.2 = true) →
        ((addTrans x pos prev next final l s).2 = true ↔
          s.2 = true ∨ final ∈ (addTrans x pos prev next final l s).1)) := by
  induction l with
  | nil =>
    intro s
    simp only [addTrans]
    refine ⟨by simp, fun h => ⟨Or.inl, fun h' => h'.elim id h⟩⟩
  | cons t r ih =>
    intro s
    have skip : (Takes x pos prev next t → t.tgt ∈ s.1) →
        ∀ q, (q ∈ s.1 ∨ ∃ t' ∈ r, t'.tgt = q ∧ Takes x pos prev next t') ↔
          (q ∈ s.1 ∨ ∃ t' ∈ t :: r, t'.tgt = q ∧ Takes x pos prev next t') := by
      intro hk q
      constructor
      · rintro (h | ⟨t', h, h'⟩)
        · exact Or.inl h
        · exact Or.inr ⟨t', List.mem_cons_of_mem _ h, h'⟩
      · rintro (h | ⟨t', h, h', h''⟩)
        · exact Or.inl h
        · rcases List.mem_cons.1 h with h | h
          · subst h; subst h'; exact Or.inl (hk h'')
          · exact Or.inr ⟨t', h, h', h''⟩
    unfold addTrans
    by_cases h1 : t.lit.lo ≤ prev ∧ t.lit.hi ≥ prev
    · rw [if_pos h1]
      by_cases h2 : (t.as.any (violated x pos prev next) || classesViolated x prev t.lit) = true
      · rw [if_pos h2]
        refine ⟨fun q => ?_, (ih s).2⟩
        rw [(ih s).1 q]
        refine skip (fun ht => ?_) q
        exfalso
        rcases Bool.or_eq_true_iff.1 h2 with h | h
        · obtain ⟨a, ha, hv⟩ := List.any_eq_true.1 h
          rw [ht.2.2 a ha] at hv; cases hv
        · rw [ht.2.1] at h; cases h
      · rw [if_neg h2]
        by_cases h3 : t.tgt ∈ s.1
        · rw [if_pos h3]
          refine ⟨fun q => ?_, (ih s).2⟩
          rw [(ih s).1 q]
          exact skip (fun _ => h3) q
        · rw [if_neg h3]
          have h2' : (t.as.any (violated x pos prev next) || classesViolated x prev t.lit) = false := by
            simpa using h2
          rw [Bool.or_eq_false_iff] at h2'
          have ht : Takes x pos prev next t := by
            refine ⟨h1, h2'.2, fun a ha => ?_⟩
            cases hv : violated x pos prev next a
            · rfl
            · have := List.any_eq_true.2 ⟨a, ha, hv⟩
              rw [h2'.1] at this; cases this
          obtain ⟨i1, i2⟩ := ih (s.1 ++ [t.tgt], s.2 || t.tgt == final)
          refine ⟨fun q => ?_, fun hs => ?_⟩
          · rw [i1 q]
            constructor
            · rintro (h | ⟨t', h, h'⟩)
              · rcases List.mem_append.1 h with h | h
                · exact Or.inl h
                · cases List.mem_singleton.1 h
                  exact Or.inr ⟨t, List.mem_cons_self, rfl, ht⟩
              · exact Or.inr ⟨t', List.mem_cons_of_mem _ h, h'⟩
            · rintro (h | ⟨t', h, h', h''⟩)
              · exact Or.inl (List.mem_append_left _ h)
              · rcases List.mem_cons.1 h with h | h
                · subst h; subst h'
                  exact Or.inl (List.mem_append_right _ (List.mem_singleton.2 rfl))
                · exact Or.inr ⟨t', h, h', h''⟩
          · rw [i2 (by
              intro h
              rcases List.mem_append.1 h with h | h
              · simp [hs h]
              · simp [List.mem_singleton.1 h])]
            constructor
            · rintro (h | h)
              · rcases Bool.or_eq_true_iff.1 h with h | h
                · exact Or.inl h
                · refine Or.inr ((i1 final).2 (Or.inl ?_))
                  rw [← eq_of_beq h]
                  exact List.mem_append_right _ (List.mem_singleton.2 rfl)
              · exact Or.inr h
            · rintro (h | h)
              · exact Or.inl (by simp [h])
              · exact Or.inr h
    · rw [if_neg h1]
      refine ⟨fun q => ?_, (ih s).2⟩
      rw [(ih s).1 q]
      exact skip (fun ht => absurd ht.1 h1) q

theorem mem_leaving (T : Tnfa) (q : Nat) (t : Trans) : t ∈ leaving T q ↔ (q, t) ∈ T.trans := by
  simp only [leaving, List.mem_map, List.mem_filter]
  constructor
  · rintro ⟨⟨q', t'⟩, ⟨h, hq⟩, rfl⟩
    rw [← eq_of_beq hq]; exact h
  · intro h; exact ⟨(q, t), ⟨h, by simp⟩, rfl⟩

/-- What `stepAll` adds. -/
theorem stepAll_spec (x : Ctx) (T : Tnfa) (pos prev next : Nat) (l : List Nat) :
    ∀ s : List Nat × Bool,
      (∀ q, q ∈ (stepAll x T pos prev next l s).1 ↔ q ∈ s.1 ∨
        ∃ q' ∈ l, ∃ t, (q', t) ∈ T.trans ∧ t.tgt = q ∧ Takes x pos prev next t) ∧
      ((T.final ∈ s.1 → s.2 = true) →
        ((stepAll x T pos prev next l s).2 = true ↔
          s.2 = true ∨ T.final ∈ (stepAll x T pos prev next l s).1)) := by
  induction l with
  | nil =>
    intro s
    simp only [stepAll]
    refine ⟨by simp, fun h => ⟨Or.inl, fun h' => h'.elim id h⟩⟩
  | cons q0 r ih =>
    intro s
    simp only [stepAll]
    obtain ⟨a1, a2⟩ := addTrans_spec x pos prev next T.final (leaving T q0) s
    obtain ⟨i1, i2⟩ := ih (addTrans x pos prev next T.final (leaving T q0) s)
    refine ⟨fun q => ?_, fun hs => ?_⟩
    · rw [i1 q, a1 q]
      constructor
      · rintro ((h | ⟨t, h, h'⟩) | ⟨q', h, t, h'⟩)
        · exact Or.inl h
        · exact Or.inr ⟨q0, List.mem_cons_self, t, (mem_leaving T q0 t).1 h, h'⟩
        · exact Or.inr ⟨q', List.mem_cons_of_mem _ h, t, h'⟩
      · rintro (h | ⟨q', h, t, h', h''⟩)
        · exact Or.inl (Or.inl h)
        · rcases List.mem_cons.1 h with h | h
          · subst h
            exact Or.inl (Or.inr ⟨t, (mem_leaving T q' t).2 h', h''⟩)
          · exact Or.inr ⟨q', h, t, h', h''⟩
    · rw [i2 (fun h => (a2 hs).2 (Or.inr h)), a2 hs]
      constructor
      · rintro ((h | h) | h)
        · exact Or.inl h
        · exact Or.inr ((i1 T.final).2 (Or.inl h))
        · exact Or.inr h
      · rintro (h | h)
        · exact Or.inl (Or.inl h)
        · exact Or.inr h

theorem path_bound {x : Ctx} {T : Tnfa} {i q k : Nat} (h : Path x T i q k) (hi : i ≤ x.str.length) :
    k ≤ x.str.length := by
  cases h with
  | start => exact hi
  | @step _ k _ _ _ _ hc =>
    rcases Nat.lt_or_ge k x.str.length with h' | h'
    · omega
    · rw [List.getElem?_eq_none_iff.2 h'] at hc; cases hc

theorem path_le {x : Ctx} {T : Tnfa} {i q k : Nat} (h : Path x T i q k) : i ≤ k := by
  induction h with
  | start => exact Nat.le_refl _
  | step => omega

/-- The matcher, from index `pos` on: `s.1` are the states entered from earlier starting points. -/
theorem run_spec {x : Ctx} (hx : x.Ok) (T : Tnfa) (rest : List Nat) :
    ∀ (pos prev : Nat) (s : List Nat × Bool), rest = x.str.drop pos → pos ≤ x.str.length →
      PrevIs x pos prev →
      (∀ q, q ∈ s.1 ↔ ∃ i, i < pos ∧ Path x T i q pos) → (T.final ∈ s.1 → s.2 = true) →
      (run x T rest pos prev s = true ↔
        s.2 = true ∨ ∃ i k, i ≤ x.str.length ∧ pos ≤ k ∧ Path x T i T.final k) := by
  induction rest with
  | nil =>
    intro pos prev s hr hpos hp hs hf
    have hlen : pos = x.str.length := by
      have := congrArg List.length hr
      simp at this; omega
    have hz : x.str[pos]?.getD 0 = 0 := (next_zero_iff hx hpos).2 hlen
    simp only [run]
    by_cases h2 : s.2 = true
    · rw [if_pos h2]; simp [h2]
    · rw [if_neg h2]
      obtain ⟨a1, a2⟩ := addInitial_spec x pos prev 0 T.final T.initial s
      rw [a2 hf, a1]
      constructor
      · rintro (h | h | ⟨as, h, h'⟩)
        · exact Or.inl h
        · exact Or.inl (hf h)
        · refine Or.inr ⟨pos, pos, hpos, Nat.le_refl _, Path.start h fun a ha => ?_⟩
          rw [← violated_iff hx hpos hp, hz]; exact h' a ha
      · rintro (h | ⟨i, k, hi, hk, hpath⟩)
        · exact Or.inl h
        · have hkb := path_bound hpath hi
          have hkp : k = pos := by omega
          subst hkp
          have hik := path_le hpath
          rcases Nat.lt_or_ge i k with h | h
          · exact Or.inr (Or.inl ((hs _).2 ⟨i, h, hpath⟩))
          · have hik' : i = k := by omega
            subst hik'
            generalize hq : T.final = q at hpath
            generalize hkk : i = k' at hpath
            cases hpath with
            | start hin has =>
              refine Or.inr (Or.inr ⟨_, hin, fun a ha => ?_⟩)
              subst hkk
              rw [← hz]; exact (violated_iff hx hpos hp a).2 (has a ha)
            | step h' => have := path_le h'; omega
  | cons c rest ih =>
    intro pos prev s hr hpos hp hs hf
    have hlt : pos < x.str.length := by
      rcases Nat.lt_or_ge pos x.str.length with h | h
      · exact h
      · rw [List.drop_eq_nil_of_le h] at hr; cases hr
    have hc : x.str[pos]? = some c := by
      have := congrArg (·[0]?) hr
      simp only [List.getElem?_cons_zero, List.getElem?_drop, Nat.add_zero] at this
      exact this.symm
    have hrest : rest = x.str.drop (pos + 1) := by
      have := congrArg List.tail hr
      simpa [List.tail_drop] using this
    have hnext : rest.headD 0 = x.str[pos + 1]?.getD 0 := by
      rw [hrest]
      cases h : x.str.drop (pos + 1) with
      | nil =>
        have : x.str.length ≤ pos + 1 := List.drop_eq_nil_iff.1 h
        rw [List.getElem?_eq_none_iff.2 this]; rfl
      | cons d _ =>
        have := congrArg (·[0]?) h
        simp only [List.getElem?_cons_zero, List.getElem?_drop, Nat.add_zero] at this
        rw [this]; rfl
    have hn0 : x.str[pos]?.getD 0 = c := by rw [hc]; rfl
    simp only [run]
    by_cases h2 : s.2 = true
    · rw [if_pos h2]; simp [h2]
    · rw [if_neg h2]
      obtain ⟨a1, a2⟩ := addInitial_spec x pos prev c T.final T.initial s
      generalize hs1 : addInitial x pos prev c T.final T.initial s = s1 at a1 a2 ⊢
      have a2' := a2 hf
      have hnow : ∀ q, q ∈ s1.1 ↔ ∃ i, Path x T i q pos := by
        intro q
        rw [a1 q]
        constructor
        · rintro (h | ⟨as, h, h'⟩)
          · obtain ⟨i, -, h⟩ := (hs q).1 h; exact ⟨i, h⟩
          · refine ⟨pos, Path.start h fun a ha => ?_⟩
            rw [← violated_iff hx hpos hp, hn0]; exact h' a ha
        · rintro ⟨i, hpath⟩
          have hik := path_le hpath
          rcases Nat.lt_or_ge i pos with h | h
          · exact Or.inl ((hs _).2 ⟨i, h, hpath⟩)
          · have hik' : i = pos := by omega
            subst hik'
            generalize hkk : i = k' at hpath
            cases hpath with
            | start hin has =>
              refine Or.inr ⟨_, hin, fun a ha => ?_⟩
              rw [← hn0]
              subst hkk
              exact (violated_iff hx hpos hp a).2 (has a ha)
            | step h' => have := path_le h'; omega
      obtain ⟨b1, b2⟩ := stepAll_spec x T (pos + 1) c (rest.headD 0) s1.1 ([], s1.2)
      have hp' : PrevIs x (pos + 1) c := Or.inr ⟨pos, rfl, hc⟩
      have htakes : ∀ t : Trans, Takes x (pos + 1) c (rest.headD 0) t ↔
          t.lit.Allows x c ∧ ∀ a ∈ t.as, Holds x (pos + 1) a := by
        intro t
        unfold Takes
        rw [hnext, ← and_assoc, allows_iff]
        constructor
        · rintro ⟨h, h'⟩
          exact ⟨h, fun a ha => (violated_iff hx (by omega) hp' a).1 (h' a ha)⟩
        · rintro ⟨h, h'⟩
          exact ⟨h, fun a ha => (violated_iff hx (by omega) hp' a).2 (h' a ha)⟩
      have hb2 := b2 (by intro h; cases h)
      have hnow' : ∀ q, q ∈ (stepAll x T (pos + 1) c (rest.headD 0) s1.1 ([], s1.2)).1 ↔
          ∃ i, i < pos + 1 ∧ Path x T i q (pos + 1) := by
        intro q
        rw [b1 q]
        constructor
        · rintro (h | ⟨q', h, t, ht, rfl, h'⟩)
          · cases h
          · obtain ⟨i, hpath⟩ := (hnow q').1 h
            have := path_le hpath
            exact ⟨i, by omega, Path.step hpath ht hc ((htakes t).1 h').1 ((htakes t).1 h').2⟩
        · rintro ⟨i, hi, hpath⟩
          generalize hkk : pos + 1 = k' at hpath
          cases hpath with
          | start hin has => omega
          | @step q' k c' t h' ht hc' hall has =>
            have hk : k = pos := by omega
            subst hk
            rw [hc] at hc'; cases hc'
            exact Or.inr ⟨q', (hnow q').2 ⟨i, h'⟩, t, ht, rfl, (htakes t).2 ⟨hall, has⟩⟩
      rw [ih (pos + 1) c _ hrest (by omega) hp' hnow' (fun h => hb2.2 (Or.inr h)), hb2]
      constructor
      · rintro ((h | h) | ⟨i, k, hi, hk, h⟩)
        · rcases a2'.1 h with h | h
          · exact Or.inl h
          · obtain ⟨i, h⟩ := (hnow _).1 h
            exact Or.inr ⟨i, pos, Nat.le_trans (path_le h) hpos, Nat.le_refl _, h⟩
        · obtain ⟨i, hi, h⟩ := (hnow' _).1 h
          exact Or.inr ⟨i, pos + 1, by omega, by omega, h⟩
        · exact Or.inr ⟨i, k, hi, by omega, h⟩
      · rintro (h | ⟨i, k, hi, hk, h⟩)
        · exact Or.inl (Or.inl (a2'.2 (Or.inl h)))
        · rcases Nat.lt_or_ge pos k with h' | h'
          · exact Or.inr ⟨i, k, hi, by omega, h⟩
          · have : k = pos := by omega
            subst this
            exact Or.inl (Or.inl (a2'.2 (Or.inr ((hnow _).2 ⟨i, h⟩))))

/-- `regexec` reports a match iff the final state can be reached from some starting point. -/
theorem regexec_iff {x : Ctx} (hx : x.Ok) (T : Tnfa) :
    regexec x T = true ↔ ∃ i k, i ≤ x.str.length ∧ Path x T i T.final k := by
  unfold regexec
  rw [run_spec hx T x.str 0 0 ([], false) (by simp) (by omega) (Or.inl ⟨rfl, rfl⟩)
    (by intro q; simp) (by intro h; cases h)]
  simp

end Mlibc.Regex
