import Verif.Regex.Syntax
import Verif.Regex.Parse

/-!
# Bracket expressions and repetition counts: the parser reads what the grammar says
-/
namespace Mlibc.Regex

/-- What the theorems ask of `qsort`: the items are the same, and sorted by their first character. -/
def SortOk (fl : Flags) : Prop :=
  ∀ ls, (∀ l, l ∈ fl.sort ls ↔ l ∈ ls) ∧ (fl.sort ls).Pairwise (fun a b => a.lo ≤ b.lo)

/-! ## Repetitions -/

theorem isDigit_iff {c : Nat} : isDigit c = true ↔ 48 ≤ c ∧ c ≤ 57 := by simp [isDigit]

theorem le_foldl (w : List Nat) : ∀ a : Nat, a ≤ w.foldl (fun a c => 10 * a + (c - 48)) a := by
  induction w with
  | nil => intro a; exact Nat.le_refl a
  | cons c w ih => intro a; simp only [List.foldl_cons]; exact Nat.le_trans (by omega) (ih _)

theorem dupDigits_eq (k : List Nat) (hk : isDigit (k.headD 0) = false) :
    ∀ (w : List Nat) (a : Nat), (∀ c ∈ w, 48 ≤ c ∧ c ≤ 57) →
      w.foldl (fun a c => 10 * a + (c - 48)) a ≤ 255 →
      dupDigits (w ++ k) a = (w.foldl (fun a c => 10 * a + (c - 48)) a, k)
  | [], a, _, _ => by
    cases k with
    | nil => rfl
    | cons c k => simp only [List.nil_append, dupDigits, List.foldl_nil]; exact if_pos (Or.inl hk)
  | c :: w, a, hw, hv => by
    have h1 := hw c (by simp)
    have h2 : a ≤ (c :: w).foldl (fun a c => 10 * a + (c - 48)) a := le_foldl _ _
    simp only [List.cons_append, dupDigits, List.foldl_cons] at hv ⊢
    rw [if_neg]
    · exact dupDigits_eq k hk w _ (fun d hd => hw d (by simp [hd])) hv
    · rw [not_or]
      refine ⟨by rw [isDigit_iff.2 h1]; simp, ?_⟩
      simp only [List.foldl_cons] at h2
      omega

theorem dupCount_eq {n : Nat} {w k : List Nat} (h : Numeral n w) (hn : n ≤ 255)
    (hk : isDigit (k.headD 0) = false) : dupCount (w ++ k) = (some n, k) := by
  obtain ⟨h0, hd, rfl⟩ := h
  cases w with
  | nil => exact absurd rfl h0
  | cons c w =>
    have h1 := hd c (by simp)
    simp only [List.cons_append, dupCount]
    rw [if_neg (by rw [isDigit_iff.2 h1]; simp)]
    simp only [List.foldl_cons, Nat.mul_zero, Nat.zero_add] at hn ⊢
    rw [dupDigits_eq k hk w _ (fun d hd' => hd d (by simp [hd'])) hn]

theorem parseDup_exact {m : Nat} {w k : List Nat} (h : Numeral m w) (hm : m ≤ 255) :
    parseDup (w ++ [125] ++ k) = some (m, some m, k) := by
  simp only [parseDup, List.append_assoc]
  rw [dupCount_eq h hm (by rfl)]
  simp
  omega

theorem parseDup_atLeast {m : Nat} {w k : List Nat} (h : Numeral m w) (hm : m ≤ 255) :
    parseDup (w ++ [44, 125] ++ k) = some (m, none, k) := by
  simp only [parseDup, List.append_assoc]
  rw [dupCount_eq h hm (by rfl)]
  simp [dupCount, isDigit]
  omega

theorem parseDup_between {m n : Nat} {u v k : List Nat} (h : Numeral m u) (h' : Numeral n v) (hm : m ≤ n)
    (hn : n ≤ 255) : parseDup (u ++ (44 :: (v ++ [125])) ++ k) = some (m, some n, k) := by
  simp only [parseDup, List.append_assoc]
  rw [dupCount_eq h (by omega) (by rfl)]
  have : dupCount (v ++ ([125] ++ k)) = (some n, [125] ++ k) := dupCount_eq h' hn (by rfl)
  simp at this ⊢
  rw [this]
  simp
  omega

/-! ## The terms of a bracket expression -/

/-- The item of a term. -/
def litOf : Term → Lit
  | .one c => { lo := c, hi := c }
  | .range a b => { lo := a, hi := b }
  | .cls k => { lo := 0, hi := 1114111, cls := k }

/-- The items the terms leave in the array. -/
def itemsOf (neg : Bool) (ts : List Term) : List Lit :=
  (ts.filter (fun t => !(neg && t.isCls))).map litOf

/-- The classes the terms leave in the array of negated classes. -/
def negsOf (neg : Bool) : List Term → List Nat
  | [] => []
  | .cls k :: ts => if neg then k :: negsOf neg ts else negsOf neg ts
  | _ :: ts => negsOf neg ts

theorem className_eq (name k : List Nat) : ∀ n, name.length < n → (∀ c ∈ name, c ≠ 58 ∧ c ≠ 0) →
    className n (name ++ 58 :: k) = some (name, k) := by
  induction name with
  | nil =>
    intro n hn _
    obtain ⟨n, rfl⟩ : ∃ m, n = m + 1 := ⟨n - 1, by simp at hn; omega⟩
    simp [className]
  | cons c name ih =>
    intro n hn hc
    obtain ⟨n, rfl⟩ : ∃ m, n = m + 1 := ⟨n - 1, by simp at hn; omega⟩
    simp only [List.cons_append, className]
    rw [if_neg (hc c (by simp)).1, ih n (by simpa using hn) (fun d hd => hc d (by simp [hd]))]

/-- A hyphen follows only if it is the last one. -/
def TailOk (k : List Nat) : Prop := k.headD 0 = 45 → k.tail.headD 0 = 93

theorem terms_char (fl : Flags) (neg : Bool) (n c : Nat) (k : List Nat) (first : Bool) (ls ng)
    (h1 : c ≠ 91) (h2 : c = 93 → first = true) (h3 : c = 45 → first = true ∨ k.headD 0 = 93)
    (hk : TailOk k) :
    terms fl neg (n + 1) (c :: k) first ls ng = terms fl neg n k false (ls ++ [{ lo := c, hi := c }]) ng := by
  conv => lhs; unfold terms
  simp only
  rw [if_neg (by rintro ⟨h, h'⟩; rw [h2 h] at h'; exact absurd h' (by simp)),
    if_neg (by
      rintro ⟨h, h', h'', -⟩
      rcases h3 h with h3 | h3
      · rw [h3] at h'; exact absurd h' (by simp)
      · exact h'' h3),
    if_neg (fun h => h1 h.1), if_neg (fun h => h1 h.1), if_neg (fun h => h.2 (hk h.1))]

theorem terms_term (fl : Flags) (neg : Bool) (n : Nat) {t : Term} {u : List Nat} (h : TermText fl.ctype t u)
    (k : List Nat) (hk : TailOk k) (first : Bool) (ls : List Lit) (ng : List Nat)
    (hng : ng.length + (negsOf neg [t]).length ≤ 64) :
    terms fl neg (n + 1) (u ++ k) first ls ng =
      terms fl neg n k false (ls ++ itemsOf neg [t]) (ng ++ negsOf neg [t]) := by
  cases h with
  | @one c hc =>
    rw [List.singleton_append, terms_char fl neg n c k first ls ng hc.2.2.1 (fun h => absurd h hc.2.2.2)
      (fun h => absurd h hc.2.1) hk]
    simp [itemsOf, negsOf, Term.isCls, litOf]
  | @range a b ha hb hab =>
    conv => lhs; unfold terms
    simp only [List.cons_append, List.nil_append]
    rw [if_neg (fun h => ha.2.2.2 h.1), if_neg (fun h => ha.2.1 h.1), if_neg (fun h => ha.2.2.1 h.1),
      if_neg (fun h => ha.2.2.1 h.1), if_pos ⟨rfl, hb.2.2.2⟩]
    simp only [List.tail_cons]
    rw [if_neg (by omega)]
    simp [itemsOf, negsOf, Term.isCls, litOf]
  | @cls name h0 hl hc =>
    conv => lhs; unfold terms
    have hn : className 14 (name ++ 58 :: (93 :: k)) = some (name, 93 :: k) :=
      className_eq name (93 :: k) 14 (by omega) hc
    simp only [List.cons_append, List.append_assoc, List.nil_append]
    rw [if_neg (by simp), if_neg (by simp), if_neg (by simp), if_pos (by simp)]
    simp only [List.tail_cons, hn]
    rw [if_neg (by simp [h0])]
    cases neg with
    | true =>
      simp only [negsOf, if_true, List.length_cons, List.length_nil] at hng
      simp only [if_true, ge_iff_le]
      rw [if_neg (by omega)]
      simp [itemsOf, negsOf, Term.isCls]
    | false => simp [itemsOf, negsOf, Term.isCls, litOf]

theorem negsOf_append (neg : Bool) (a b : List Term) : negsOf neg (a ++ b) = negsOf neg a ++ negsOf neg b := by
  induction a with
  | nil => rfl
  | cons t a ih => cases t <;> simp [negsOf, ih] <;> split <;> simp

theorem itemsOf_append (neg : Bool) (a b : List Term) : itemsOf neg (a ++ b) = itemsOf neg a ++ itemsOf neg b := by
  simp [itemsOf]

theorem tailOk_terms {ct : List Nat → Nat} {ts w} (h : TermsText ct ts w) (k : List Nat) (hk : TailOk k) :
    TailOk (w ++ k) := by
  cases h with
  | nil => exact hk
  | cons ht _ =>
    intro h
    cases ht with
    | one hc => exact absurd h hc.2.1
    | range ha => exact absurd h ha.2.1
    | cls => simp at h

/-- The parser reads a sequence of terms. -/
theorem terms_terms (fl : Flags) (neg : Bool) {ts : List Term} {w : List Nat} (h : TermsText fl.ctype ts w)
    (k : List Nat) (hk : TailOk k) : ∀ (n : Nat) (first : Bool) (ls : List Lit) (ng : List Nat),
    ng.length + (negsOf neg ts).length ≤ 64 →
    terms fl neg (n + ts.length) (w ++ k) first ls ng =
      terms fl neg n k (if ts = [] then first else false) (ls ++ itemsOf neg ts) (ng ++ negsOf neg ts) := by
  induction h with
  | nil => intro n first ls ng _; simp [itemsOf, negsOf]
  | @cons t ts u v ht hts ih =>
    intro n first ls ng hng
    have e : negsOf neg (t :: ts) = negsOf neg [t] ++ negsOf neg ts := negsOf_append neg [t] ts
    have e' : itemsOf neg (t :: ts) = itemsOf neg [t] ++ itemsOf neg ts := itemsOf_append neg [t] ts
    rw [e, List.length_append] at hng
    rw [List.append_assoc, List.length_cons, ← Nat.add_assoc,
      terms_term fl neg _ ht (v ++ k) (tailOk_terms hts k hk) first ls ng (by omega),
      ih n false _ _ (by rw [List.length_append]; omega), e, e']
    simp

theorem termsText_length {ct : List Nat → Nat} {ts w} (h : TermsText ct ts w) : ts.length ≤ w.length := by
  induction h with
  | nil => simp
  | @cons t ts u v ht _ ih =>
    rw [List.length_append, List.length_cons]
    have : 1 ≤ u.length := by cases ht <;> simp
    omega

theorem negsOf_one (neg : Bool) (l : List Nat) : negsOf neg (l.map Term.one) = [] := by
  induction l with
  | nil => rfl
  | cons c l ih => simp [negsOf, ih]

theorem negsOf_length (neg : Bool) (ts : List Term) : (negsOf neg ts).length ≤ (ts.filter Term.isCls).length := by
  induction ts with
  | nil => simp [negsOf]
  | cons t ts ih =>
    cases t with
    | one => simpa [negsOf, Term.isCls] using ih
    | range => simpa [negsOf, Term.isCls] using ih
    | cls =>
      simp only [negsOf, Term.isCls, List.filter_cons, if_true, List.length_cons]
      split
      · simpa using ih
      · omega

theorem terms_end (fl : Flags) (neg : Bool) (n : Nat) (k : List Nat) (ls : List Lit) (ng : List Nat) :
    terms fl neg (n + 1) (93 :: k) false ls ng = .ok (ls, ng, k) := by
  conv => lhs; unfold terms
  simp

theorem itemsOf_one (neg : Bool) (c : Nat) : itemsOf neg [.one c] = [{ lo := c, hi := c }] := by
  simp [itemsOf, Term.isCls, litOf]

theorem terms_tail (fl : Flags) (neg : Bool) {mid : List Term} {text trail : List Nat}
    (h : TermsText fl.ctype mid text) (ht : trail = [] ∨ trail = [45]) (k : List Nat) (first : Bool)
    (hf : first = false ∨ mid ++ trail.map Term.one ≠ []) (ls : List Lit) (ng : List Nat) (n : Nat)
    (hn : mid.length + 2 ≤ n) (hng : ng.length + (negsOf neg mid).length ≤ 64) :
    terms fl neg n (text ++ (trail ++ 93 :: k)) first ls ng =
      .ok (ls ++ itemsOf neg (mid ++ trail.map Term.one), ng ++ negsOf neg mid, k) := by
  obtain ⟨n, rfl⟩ : ∃ m, n = (m + 2) + mid.length := ⟨n - 2 - mid.length, by omega⟩
  rcases ht with rfl | rfl
  · rw [terms_terms fl neg h _ (by simp [TailOk]) _ first ls ng hng]
    have : (if mid = [] then first else false) = false := by
      split
      · rename_i hm
        subst hm
        simpa using hf
      · rfl
    rw [this, List.nil_append, terms_end]
    simp
  · rw [terms_terms fl neg h _ (by simp [TailOk]) _ first ls ng hng, List.singleton_append,
      terms_char fl neg _ 45 _ _ _ _ (by simp) (by simp) (by simp) (by simp [TailOk]), terms_end,
      List.map_singleton, itemsOf_append, itemsOf_one]
    simp

theorem negsOf_list {neg : Bool} {lead trail : List Nat} {mid : List Term} :
    negsOf neg (lead.map Term.one ++ mid ++ trail.map Term.one) = negsOf neg mid := by
  rw [negsOf_append, negsOf_append, negsOf_one, negsOf_one]
  simp

/-- The parser reads the text between the brackets. -/
theorem terms_list (fl : Flags) (neg : Bool) {ts : List Term} {w : List Nat} (h : ListText fl.ctype ts w)
    (hc : (negsOf neg ts).length ≤ 64) (k : List Nat) (n : Nat) (hn : w.length + 2 ≤ n) :
    terms fl neg n (w ++ 93 :: k) true [] [] = .ok (itemsOf neg ts, negsOf neg ts, k) := by
  obtain ⟨lead, mid, text, trail, rfl, rfl, hm, hl, ht, h0⟩ := h
  have hlen := termsText_length hm
  rw [negsOf_list] at hc ⊢
  simp only [List.length_append] at hn
  have key : ∀ c, lead = [c] → (c = 93 ∨ c = 45) →
      terms fl neg n (lead ++ text ++ trail ++ 93 :: k) true [] [] =
        .ok (itemsOf neg (lead.map Term.one ++ mid ++ trail.map Term.one), negsOf neg mid, k) := by
    rintro c rfl hc'
    obtain ⟨n, rfl⟩ : ∃ m, n = m + 1 := ⟨n - 1, by omega⟩
    have hk : TailOk (trail ++ 93 :: k) := by rcases ht with rfl | rfl <;> simp [TailOk]
    simp only [List.append_assoc, List.cons_append, List.nil_append, List.map_cons, List.map_nil]
    rw [terms_char fl neg _ c _ true _ _ (by omega) (fun _ => rfl) (fun _ => Or.inl rfl)
      (tailOk_terms hm _ hk),
      terms_tail fl neg hm ht k false (Or.inl rfl) _ _ n (by simp at hn; omega) (by simpa using hc)]
    rw [show Term.one c :: (mid ++ trail.map Term.one) = [Term.one c] ++ (mid ++ trail.map Term.one) from rfl,
      itemsOf_append neg [Term.one c], itemsOf_one]
    simp
  rcases hl with rfl | rfl | rfl
  · simp only [List.append_assoc, List.nil_append, List.map_nil] at h0 ⊢
    rw [terms_tail fl neg hm ht k true (Or.inr (by simpa using h0)) _ _ n (by simp at hn; omega) (by simpa using hc)]
    simp
  · exact key 93 rfl (Or.inl rfl)
  · exact key 45 rfl (Or.inr rfl)

/-! ## What the items mean -/

theorem litOf_allows (x : Ctx) (t : Term) (c : Nat) (hc : c ≤ 1114111) (ht : ∀ k, t = .cls k → k ≠ 0) :
    (litOf t).Allows x c ↔ t.Has x c := by
  cases t with
  | one d => simp [litOf, Lit.Allows, Term.Has]; omega
  | range a b => simp [litOf, Lit.Allows, Term.Has]
  | cls k => simp [litOf, Lit.Allows, Term.Has, hc, ht k rfl]

theorem complement_iff (nc : List Nat) (c : Nat) (hc : c ≤ 1114111) : ∀ (S : List Lit) (m : Nat),
    S.Pairwise (fun a b => a.lo ≤ b.lo) → (∀ l ∈ S, l.lo ≤ l.hi) →
    ((∃ l ∈ complement nc (S ++ [{ lo := 1114112, hi := 1114112 }]) m, l.lo ≤ c ∧ c ≤ l.hi) ↔
      m ≤ c ∧ ∀ l ∈ S, ¬ (l.lo ≤ c ∧ c ≤ l.hi))
  | [], m, _, _ => by
    simp only [List.nil_append, complement]
    split
    · simp; omega
    · simp; omega
  | l :: S, m, hs, hl => by
    have ih := fun m => complement_iff nc c hc S m hs.of_cons (fun d hd => hl d (by simp [hd]))
    have hlo := hl l (by simp)
    have hrel := (List.pairwise_cons.1 hs).1
    simp only [List.cons_append, complement]
    split
    · rename_i h
      rw [ih]
      simp only [List.forall_mem_cons]
      constructor
      · rintro ⟨h1, h2⟩
        exact ⟨by omega, by omega, h2⟩
      · rintro ⟨h1, h2, h3⟩
        exact ⟨by omega, h3⟩
    · rename_i h
      rw [List.forall_mem_cons]
      simp only [List.mem_cons, exists_eq_or_imp, ih]
      constructor
      · rintro (⟨h1, h2⟩ | ⟨h1, h2⟩)
        · refine ⟨h1, by omega, fun d hd => ?_⟩
          have := hrel d hd
          omega
        · exact ⟨by omega, by omega, h2⟩
      · rintro ⟨h1, h2, h3⟩
        by_cases h4 : c < l.lo
        · exact Or.inl ⟨h1, by omega⟩
        · exact Or.inr ⟨by omega, h3⟩

theorem complement_mem (nc : List Nat) : ∀ (S : List Lit) (m : Nat), (∀ l ∈ S, l.cls = 0) →
    ∀ l ∈ complement nc S m, l.cls = 0 ∧ l.neg = nc
  | [], _, _, l, h => by simp [complement] at h
  | s :: S, m, hS, l, h => by
    simp only [complement] at h
    have h' := fun m => complement_mem nc S m (fun d hd => hS d (by simp [hd])) l
    split at h
    · exact h' _ h
    · rcases List.mem_cons.1 h with rfl | h
      · exact ⟨hS s (by simp), rfl⟩
      · exact h' _ h

theorem complement_ne_nil (nc : List Nat) : ∀ (S : List Lit) (m : Nat), S ≠ [] → (∀ l ∈ S, m < l.lo) →
    complement nc S m ≠ []
  | [], _, h, _ => absurd rfl h
  | s :: S, m, _, h => by
    simp only [complement]
    rw [if_neg (by have := h s (by simp); omega)]
    simp

/-- What is true of a term of a bracket expression. -/
def TermOk : Term → Prop
  | .one c => c ≠ 0
  | .range a b => a ≠ 0 ∧ a ≤ b
  | .cls k => k ≠ 0

theorem termsText_ok {ct : List Nat → Nat} {ts w} (h : TermsText ct ts w) : ∀ t ∈ ts, TermOk t := by
  induction h with
  | nil => simp
  | cons ht _ ih =>
    rw [List.forall_mem_cons]
    refine ⟨?_, ih⟩
    cases ht with
    | one h => exact h.1
    | range h _ h' => exact ⟨h.1, h'⟩
    | cls h => exact h

theorem listText_ok {ct : List Nat → Nat} {ts w} (h : ListText ct ts w) : ∀ t ∈ ts, TermOk t := by
  obtain ⟨lead, mid, text, trail, rfl, rfl, hm, hl, ht, -⟩ := h
  intro t h
  rw [List.mem_append, List.mem_append] at h
  rcases h with (h | h) | h
  · rcases hl with rfl | rfl | rfl
    · simp at h
    · simp at h; subst h; simp [TermOk]
    · simp at h; subst h; simp [TermOk]
  · exact termsText_ok hm t h
  · rcases ht with rfl | rfl
    · simp at h
    · simp at h; subst h; simp [TermOk]

theorem mem_negsOf {k : Nat} : ∀ {ts : List Term}, k ∈ negsOf true ts ↔ Term.cls k ∈ ts
  | [] => by simp [negsOf]
  | .one c :: ts => by simp [negsOf, mem_negsOf (ts := ts)]
  | .range a b :: ts => by simp [negsOf, mem_negsOf (ts := ts)]
  | .cls j :: ts => by simp [negsOf, mem_negsOf (ts := ts)]

theorem negsOf_false (ts : List Term) : negsOf false ts = [] := by
  induction ts with
  | nil => rfl
  | cons t ts ih => cases t <;> simp [negsOf, ih]

/-- A bracket expression: the parser finds its end, and its items allow the characters that are listed. -/
theorem bracket_pos (fl : Flags) {ts : List Term} {w : List Nat} (h : ListText fl.ctype ts w)
    (hw : w.head? ≠ some 94) (k : List Nat) :
    ∃ ls, bracket fl (w ++ 93 :: k) = .ok (ls, k) ∧ ls ≠ [] ∧
      ∀ x c, c ≤ 1114111 → ((∃ l ∈ ls, l.Allows x c) ↔ ∃ t ∈ ts, t.Has x c) := by
  have h94 : decide ((w ++ 93 :: k).headD 0 = 94) = false := by
    cases w with
    | nil => simp
    | cons c w => simpa using hw
  have hi : itemsOf false ts = ts.map litOf := by
    simp only [itemsOf, Bool.false_and, Bool.not_false]
    rw [List.filter_eq_self.2 (fun _ _ => rfl)]
  refine ⟨itemsOf false ts, ?_, ?_, fun x c hc => ?_⟩
  · simp only [bracket, h94, if_false, Bool.false_eq_true]
    rw [terms_list fl false h (by simp [negsOf_false]) k _ (by simp)]
  · obtain ⟨_, _, _, _, _, _, _, _, _, h0⟩ := h
    rw [hi]
    simpa using h0
  · have hok := listText_ok h
    simp only [hi, List.mem_map]
    constructor
    · rintro ⟨_, ⟨t, ht, rfl⟩, hl⟩
      exact ⟨t, ht, (litOf_allows x t c hc (fun k hk => by have := hok t ht; subst hk; exact this)).1 hl⟩
    · rintro ⟨t, ht, hl⟩
      exact ⟨_, ⟨t, ht, rfl⟩, (litOf_allows x t c hc (fun k hk => by have := hok t ht; subst hk; exact this)).2 hl⟩

/-- A bracket expression with a circumflex: the items allow the characters that are not listed. -/
theorem bracket_neg (fl : Flags) (hS : SortOk fl) {ts : List Term} {w : List Nat} (h : ListText fl.ctype ts w)
    (hcls : (ts.filter Term.isCls).length ≤ 64) (k : List Nat) :
    ∃ ls, bracket fl (94 :: (w ++ 93 :: k)) = .ok (ls, k) ∧ ls ≠ [] ∧
      ∀ x c, c ≤ 1114111 → ((∃ l ∈ ls, l.Allows x c) ↔
        (¬ ∃ t ∈ ts, t.Has x c) ∧ ¬ (fl.newline = true ∧ c = 10)) := by
  have hok := listText_ok h
  generalize hI : (if fl.newline then itemsOf true ts ++ [{ lo := 10, hi := 10 }] else itemsOf true ts) = I
  have hmem : ∀ l, l ∈ I ↔ (∃ t ∈ ts, t.isCls = false ∧ litOf t = l) ∨ (fl.newline = true ∧ l = { lo := 10, hi := 10 }) := by
    intro l
    subst hI
    cases fl.newline <;> simp [itemsOf, and_assoc]
  have hprop : ∀ l ∈ I, 0 < l.lo ∧ l.lo ≤ l.hi ∧ l.cls = 0 := by
    intro l hl
    rcases (hmem l).1 hl with ⟨t, ht, hc, rfl⟩ | ⟨-, rfl⟩
    · have := hok t ht
      cases t with
      | one c => exact ⟨Nat.pos_of_ne_zero this, Nat.le_refl _, rfl⟩
      | range a b => exact ⟨Nat.pos_of_ne_zero this.1, this.2, rfl⟩
      | cls k => simp [Term.isCls] at hc
    · simp
  obtain ⟨hs1, hs2⟩ := hS I
  have hprop' : ∀ l ∈ fl.sort I, 0 < l.lo ∧ l.lo ≤ l.hi ∧ l.cls = 0 := fun l hl => hprop l ((hs1 l).1 hl)
  refine ⟨complement (negsOf true ts) (fl.sort I ++ [{ lo := 1114112, hi := 1114112 }]) 0, ?_, ?_, fun x c hc => ?_⟩
  · simp only [bracket, List.headD_cons, decide_true, if_true, List.tail_cons]
    rw [terms_list fl true h (Nat.le_trans (negsOf_length _ _) hcls) k _ (by simp)]
    simp only [hI]
  · refine complement_ne_nil _ _ _ (by simp) (fun l hl => ?_)
    rcases List.mem_append.1 hl with hl | hl
    · exact (hprop' l hl).1
    · simp at hl; subst hl; simp
  · have hc0 : ∀ l ∈ fl.sort I ++ [{ lo := 1114112, hi := 1114112 }], l.cls = 0 := by
      intro l hl
      rcases List.mem_append.1 hl with hl | hl
      · exact (hprop' l hl).2.2
      · simp at hl; subst hl; rfl
    have hm := complement_mem (negsOf true ts) _ 0 hc0
    have hi := complement_iff (negsOf true ts) c hc (fl.sort I) 0 hs2 (fun l hl => (hprop' l hl).2.1)
    constructor
    · rintro ⟨l, hl, h1, h2, -, h4⟩
      have h5 := (hi.1 ⟨l, hl, h1, h2⟩).2
      rw [(hm l hl).2] at h4
      refine ⟨?_, ?_⟩
      · rintro ⟨t, ht, hhas⟩
        by_cases htc : t.isCls = true
        · cases t with
          | cls k => exact h4 k (mem_negsOf.2 ht) hhas
          | one => simp [Term.isCls] at htc
          | range => simp [Term.isCls] at htc
        · have htI : litOf t ∈ fl.sort I := (hs1 _).2 ((hmem _).2 (Or.inl ⟨t, ht, by simpa using htc, rfl⟩))
          refine h5 _ htI ?_
          cases t with
          | cls k => simp [Term.isCls] at htc
          | one d => simp only [Term.Has] at hhas; simp [litOf]; omega
          | range a b => exact hhas
      · rintro ⟨hn, rfl⟩
        exact h5 { lo := 10, hi := 10 } ((hs1 _).2 ((hmem _).2 (Or.inr ⟨hn, rfl⟩))) (by simp)
    · rintro ⟨h1, h2⟩
      obtain ⟨l, hl, h3, h4⟩ := hi.2 ⟨Nat.zero_le _, fun l hl hlc => by
        rcases (hmem l).1 ((hs1 l).1 hl) with ⟨t, ht, htc, rfl⟩ | ⟨hn, rfl⟩
        · refine h1 ⟨t, ht, ?_⟩
          cases t with
          | cls k => simp [Term.isCls] at htc
          | one d => simp [litOf] at hlc; simp only [Term.Has]; omega
          | range a b => exact hlc
        · exact h2 ⟨hn, by simp at hlc; omega⟩⟩
      refine ⟨l, hl, h3, h4, fun hne => absurd (hm l hl).1 hne, ?_⟩
      rw [(hm l hl).2]
      exact fun k hk hin => h1 ⟨.cls k, mem_negsOf.1 hk, hin⟩

end Mlibc.Regex
