import Verif.Locale.Set

/-
Histories of setlocale calls, newlocale, and where they are not what C and POSIX say. Property C89.
-/
namespace Mlibc.Locale
open Mlibc

variable {D : Type}

/-! ## Specification -/

/-- A name that can be used in the list of names of categories, and whose codeset, if it has one, is a number or has a letter in it. -/
def Tidy (name : List Nat) : Prop :=
  name ≠ [] ∧ 59 ∉ name ∧ ∀ c, (parse name).code = some c → (∀ x ∈ c, 48 ≤ x ∧ x ≤ 57) ∨ ∃ x ∈ c, (65 ≤ x ∧ x ≤ 90) ∨ (97 ≤ x ∧ x ≤ 122)

/-- The system's locales are in order: a record of the archive has all categories, and no directory in the path is (for locales) called "", "C" or "POSIX". -/
structure Regular (db : Db D) : Prop where
  complete : ∀ n r c, db.archive n = some r → Category c → r c ≠ none
  dirs : ∀ lp ∈ db.paths, ∀ dir c d, db.file (filePath lp dir c) c = some d → dir ≠ [] ∧ dir ≠ txt "C" ∧ dir ≠ txt "POSIX"

/-- An argument of setlocale: one name, or the list of the names of the categories in the form "LC_CTYPE=..;LC_NUMERIC=..;...". -/
def TidyArg (D : Type) (name : List Nat) : Prop :=
  Tidy name ∨ ∃ l : Loc D, (∀ c, Category c → Tidy (l.cat c).1) ∧ name = composite l cats

/-- The values in the environment are such. -/
structure TidyEnv (D : Type) (env : List Nat → Option (List Nat)) : Prop where
  all : ∀ v, EnvIs env "LC_ALL" v → TidyArg D v
  own : ∀ c v, Category c → EnvIs env (variable_ c) v → Tidy v
  lang : ∀ v, EnvIs env "LANG" v → Tidy v

/-- The locales that calls of setlocale lead to from the start of the program, when no call for all categories fails. -/
inductive Reach (db : Db D) (env : List Nat → Option (List Nat)) : Loc D → Prop
  | start : Reach db env (fresh db)
  | query {loc loc' : Loc D} {c : Nat} {r : Option (List Nat)} : Reach db env loc → setlocale db env loc c none = .ok (r, loc') → Reach db env loc'
  | one {loc loc' : Loc D} {c : Nat} {name : List Nat} {r : Option (List Nat)} : Reach db env loc → Category c → Tidy name →
      setlocale db env loc c (some name) = .ok (r, loc') → Reach db env loc'
  | all {loc loc' : Loc D} {name n : List Nat} : Reach db env loc → TidyArg D name → setlocale db env loc 6 (some name) = .ok (some n, loc') → Reach db env loc'
  | env {loc loc' : Loc D} {c : Nat} {n : List Nat} : Reach db env loc → c ≤ 12 → setlocale db env loc c (some []) = .ok (some n, loc') → Reach db env loc'

/-! ## Proofs -/

theorem mem_normalize {x : Nat} {c : List Nat} (h : x ∈ normalize c) : (48 ≤ x ∧ x ≤ 57) ∨ (97 ≤ x ∧ x ≤ 122) := by
  unfold normalize at h
  rw [List.mem_append, List.mem_filterMap] at h
  rcases h with h | ⟨y, _, h⟩
  · split at h
    · simp only [List.mem_cons, List.not_mem_nil, or_false] at h
      omega
    · cases h
  · split at h
    · rename_i ha
      have ha' : (65 ≤ y ∧ y ≤ 90) ∨ (97 ≤ y ∧ y ≤ 122) := by simpa [isAlpha] using ha
      injection h with h
      unfold toLower at h
      split at h <;> omega
    · split at h
      · rename_i hd
        have hd' : 48 ≤ y ∧ y ≤ 57 := by simpa [isDigit] using hd
        injection h with h
        omega
      · cases h

theorem filterMap_same (l : List Nat) (h : ∀ x ∈ l, (48 ≤ x ∧ x ≤ 57) ∨ (97 ≤ x ∧ x ≤ 122)) :
    (l.filterMap fun c => if isAlpha c then some (toLower c) else if isDigit c then some c else none) = l := by
  induction l with
  | nil => rfl
  | cons x l ih =>
    rw [List.filterMap_cons, ih (fun y hy => h y (List.mem_cons_of_mem _ hy))]
    rcases h x (by simp) with hx | hx
    · have h1 : isAlpha x = false := by simp [isAlpha]; omega
      have h2 : isDigit x = true := by simp [isDigit]; omega
      rw [h1, h2]
      rfl
    · have h1 : isAlpha x = true := by simp [isAlpha]; omega
      have h2 : toLower x = x := by unfold toLower; rw [if_neg (by omega)]
      rw [h1, h2]
      rfl

def HasForm (c : List Nat) : Prop := (∀ x ∈ c, 48 ≤ x ∧ x ≤ 57) ∨ ∃ x ∈ c, (65 ≤ x ∧ x ≤ 90) ∨ (97 ≤ x ∧ x ≤ 122)

theorem normalize_letter {c : List Nat} (h : HasForm c) : ∃ x ∈ normalize c, 97 ≤ x ∧ x ≤ 122 := by
  unfold normalize
  rcases h with h | ⟨x, hx, h⟩
  · refine ⟨105, ?_, by omega⟩
    have : c.all isDigit = true := by rw [List.all_eq_true]; intro x hx; have := h x hx; simp [isDigit]; omega
    rw [if_pos this]
    simp
  · refine ⟨toLower x, ?_, ?_⟩
    · rw [List.mem_append, List.mem_filterMap]
      right
      refine ⟨x, hx, ?_⟩
      have : isAlpha x = true := by simp [isAlpha]; omega
      rw [if_pos this]
    · unfold toLower
      split <;> omega

theorem normalize_idem {c : List Nat} (h : HasForm c) : normalize (normalize c) = normalize c := by
  obtain ⟨x, hx, hl⟩ := normalize_letter h
  have : (normalize c).all isDigit = false := by
    rw [Bool.eq_false_iff]
    intro e
    have := List.all_eq_true.1 e x hx
    simp [isDigit] at this
    omega
  rw [normalize.eq_def (normalize c), this, filterMap_same (normalize c) (fun y hy => mem_normalize hy)]
  rfl

/-- The parts of a name that is tried. -/
theorem apply_wf (p : Parts) (hp : WellFormed p) (ch : Choice) (hch : ch.Possible (normOf p) p) : WellFormed (ch.apply (normOf p) p) where
  lang := hp.lang
  terr := by
    intro t h
    unfold Choice.apply at h
    dsimp only at h
    split at h
    · exact hp.terr t h
    · cases h
  code := by
    intro c h
    unfold Choice.apply at h
    obtain ⟨_, _, h3⟩ := hch
    cases hc : ch.code with
    | exact_ => rw [hc] at h; exact hp.code c h
    | none_ => rw [hc] at h; cases h
    | normal =>
      rw [hc] at h h3
      dsimp only at h h3
      injection h with h
      subst h
      refine ⟨h3.2, ?_⟩
      intro hm
      unfold normOf at hm
      split at hm
      · have := mem_normalize hm
        omega
      · cases hm
  modi := by
    intro t h
    unfold Choice.apply at h
    dsimp only at h
    split at h
    · exact hp.modi t h
    · cases h

/-- What is tried for a name that was tried was tried. -/
theorem build_sub (p : Parts) (hf : ∀ c, p.code = some c → HasForm c) (ch : Choice) (hch : ch.Possible (normOf p) p) :
    ∀ x ∈ build (ch.apply (normOf p) p), x ∈ build p := by
  intro x hx
  rw [build_eq, List.mem_map] at hx
  obtain ⟨ch', hch', rfl⟩ := hx
  rw [List.mem_filter, possible_iff] at hch'
  obtain ⟨_, h1, h2, h3⟩ := hch'
  obtain ⟨g1, g2, g3⟩ := hch
  rw [build_eq, List.mem_map]
  have key : ∃ code : CodeVariant, (match code with | .exact_ => p.code ≠ none ∧ p.code ≠ some (normOf p) | .normal => p.code ≠ none ∧ normOf p ≠ [] | .none_ => True) ∧
      (match code with | .exact_ => p.code | .normal => some (normOf p) | .none_ => none) =
      (match ch'.code with | .exact_ => (ch.apply (normOf p) p).code | .normal => some (normOf (ch.apply (normOf p) p)) | .none_ => none) := by
    cases hc : ch.code with
    | exact_ =>
      have e : (ch.apply (normOf p) p).code = p.code := by unfold Choice.apply; rw [hc]
      have e2 : normOf (ch.apply (normOf p) p) = normOf p := by rw [normOf.eq_def (ch.apply _ p), e]; rfl
      refine ⟨ch'.code, ?_, ?_⟩
      · rw [e, e2] at h3
        exact h3
      · rw [e, e2]
    | normal =>
      rw [hc] at g3
      dsimp only at g3
      obtain ⟨c, hcode⟩ := Option.ne_none_iff_exists'.1 g3.1
      have e0 : normOf p = normalize c := by unfold normOf; rw [hcode]
      have e : (ch.apply (normOf p) p).code = some (normOf p) := by unfold Choice.apply; rw [hc]
      have e2 : normOf (ch.apply (normOf p) p) = normOf p := by
        rw [normOf.eq_def (ch.apply _ p), e]
        dsimp only
        rw [e0]
        exact normalize_idem (hf c hcode)
      cases hc' : ch'.code with
      | exact_ =>
        rw [hc', e, e2] at h3
        exact absurd rfl h3.2
      | normal => exact ⟨.normal, g3, by dsimp only; rw [e2]⟩
      | none_ => exact ⟨.none_, trivial, rfl⟩
    | none_ =>
      have e : (ch.apply (normOf p) p).code = none := by unfold Choice.apply; rw [hc]
      cases hc' : ch'.code with
      | exact_ =>
        rw [hc', e] at h3
        exact absurd rfl h3.1
      | normal =>
        rw [hc', e] at h3
        exact absurd rfl h3.1
      | none_ => exact ⟨.none_, trivial, rfl⟩
  obtain ⟨code, k1, k2⟩ := key
  refine ⟨⟨ch.terr && ch'.terr, ch.modi && ch'.modi, code⟩, ?_, ?_⟩
  · rw [List.mem_filter, possible_iff]
    refine ⟨choices_all _, ?_, ?_, k1⟩
    · intro h
      exact g1 (by dsimp only at h; revert h; cases ch.terr <;> simp)
    · intro h
      exact g2 (by dsimp only at h; revert h; cases ch.modi <;> simp)
  · congr 1
    unfold Choice.apply at k2 ⊢
    dsimp only at k2 ⊢
    rw [Parts.mk.injEq]
    refine ⟨rfl, ?_, k2, ?_⟩
    · cases ch.terr <;> cases ch'.terr <;> rfl
    · cases ch.modi <;> cases ch'.modi <;> rfl

theorem mem_text {x : Nat} {p : Parts} (h : x ∈ p.text) : x ∈ p.lang ∨ x = 95 ∨ x = 46 ∨ x = 64 ∨ (∃ t, p.terr = some t ∧ x ∈ t) ∨ (∃ c, p.code = some c ∧ x ∈ c) ∨
    (∃ m, p.modi = some m ∧ x ∈ m) := by
  rw [← join_text] at h
  unfold join at h
  simp only [List.mem_append] at h
  rcases h with ((h | h) | h) | h
  · exact Or.inl h
  · split at h
    · rename_i t ht
      rcases List.mem_cons.1 h with h | h
      · exact Or.inr (Or.inl h)
      · exact Or.inr (Or.inr (Or.inr (Or.inr (Or.inl ⟨t, ht, h⟩))))
    · cases h
  · split at h
    · rename_i t ht
      rcases List.mem_cons.1 h with h | h
      · exact Or.inr (Or.inr (Or.inl h))
      · exact Or.inr (Or.inr (Or.inr (Or.inr (Or.inr (Or.inl ⟨t, ht, h⟩)))))
    · cases h
  · split at h
    · rename_i t ht
      rcases List.mem_cons.1 h with h | h
      · exact Or.inr (Or.inr (Or.inr (Or.inl h)))
      · exact Or.inr (Or.inr (Or.inr (Or.inr (Or.inr (Or.inr ⟨t, ht, h⟩)))))
    · cases h

/-- Every part is a piece of the name. -/
def Within (s : List Nat) (p : Parts) : Prop :=
  (∀ x ∈ p.lang, x ∈ s) ∧ (∀ t, p.terr = some t → ∀ x ∈ t, x ∈ s) ∧ (∀ t, p.code = some t → ∀ x ∈ t, x ∈ s) ∧ (∀ t, p.modi = some t → ∀ x ∈ t, x ∈ s)

theorem mem_sub {x : Nat} {s : List Nat} {a b : Nat} (h : x ∈ sub s a b) : x ∈ s := List.mem_of_mem_drop (List.mem_of_mem_take h)

theorem parseMod_within (s lang : List Nat) (terr code : Option (List Nat)) (off : Nat) (h1 : ∀ x ∈ lang, x ∈ s) (h2 : ∀ t, terr = some t → ∀ x ∈ t, x ∈ s)
    (h3 : ∀ t, code = some t → ∀ x ∈ t, x ∈ s) : Within s (parseMod s lang terr code off) := by
  refine ⟨h1, h2, h3, ?_⟩
  intro t ht x hx
  unfold parseMod at ht
  dsimp only at ht
  split at ht
  · injection ht with ht
    subst ht
    exact mem_sub hx
  · cases ht

theorem ite_sub {P : Prop} [Decidable P] {s t : List Nat} {a b : Nat} (h : (if P then some (sub s a b) else none) = some t) : ∀ x ∈ t, x ∈ s := by
  intro x hx
  split at h
  · injection h with h
    subst h
    exact mem_sub hx
  · cases h

theorem parseCode_within (s lang : List Nat) (terr : Option (List Nat)) (a off : Nat) (h1 : ∀ x ∈ lang, x ∈ s) (h2 : ∀ t, terr = some t → ∀ x ∈ t, x ∈ s) :
    Within s (parseCode s lang terr a off) := by
  unfold parseCode
  split
  · split
    · exact parseMod_within s lang terr _ _ h1 h2 (fun t ht => ite_sub ht)
    · exact ⟨h1, h2, fun t ht => ite_sub ht, fun t ht => by cases ht⟩
  · exact parseMod_within s lang terr none _ h1 h2 (fun t ht => by cases ht)

theorem parse_within (s : List Nat) : Within s (parse s) := by
  have hs : ∀ a b, ∀ x ∈ sub s a b, x ∈ s := fun a b x hx => mem_sub hx
  unfold parse
  split
  · exact ⟨fun x hx => hx, fun t ht => (by cases ht), fun t ht => (by cases ht), fun t ht => (by cases ht)⟩
  · split
    · split
      · exact parseCode_within s _ _ _ _ (hs _ _) (fun t ht => ite_sub ht)
      · exact ⟨hs _ _, fun t ht => ite_sub ht, fun t ht => (by cases ht), fun t ht => (by cases ht)⟩
    · exact parseCode_within s _ none _ _ (hs _ _) (fun t ht => by cases ht)

/-- A name that is tried. -/
theorem cand_spec {name cand : List Nat} (ht : Tidy name) (h : cand ∈ build (parse name)) :
    59 ∉ cand ∧ (∀ c, (parse cand).code = some c → HasForm c) ∧ (∃ tl, build (parse cand) = cand :: tl) ∧ ∀ x ∈ build (parse cand), x ∈ build (parse name) := by
  obtain ⟨_, hsemi, hform⟩ := ht
  rw [build_eq, List.mem_map] at h
  obtain ⟨ch, hch, rfl⟩ := h
  rw [List.mem_filter, possible_iff] at hch
  have hposs := hch.2
  have hwf := apply_wf (parse name) (parse_wellFormed name) ch hposs
  have hin := parse_within name
  rw [parse_text _ hwf]
  have hcode : ∀ c, (ch.apply (normOf (parse name)) (parse name)).code = some c → HasForm c ∧ 59 ∉ c ∧ c ≠ [] := by
    intro c h
    have hne := (hwf.code c h).1
    unfold Choice.apply at h
    obtain ⟨_, _, h3⟩ := hposs
    cases hc : ch.code with
    | exact_ => rw [hc] at h; exact ⟨hform c h, fun hm => hsemi (hin.2.2.1 c h _ hm), hne⟩
    | none_ => rw [hc] at h; cases h
    | normal =>
      rw [hc] at h h3
      dsimp only at h h3
      injection h with h
      obtain ⟨c0, hc0⟩ := Option.ne_none_iff_exists'.1 h3.1
      have e0 : c = normalize c0 := by rw [← h]; unfold normOf; rw [hc0]
      rw [e0]
      obtain ⟨x, hx, hl⟩ := normalize_letter (hform c0 hc0)
      refine ⟨Or.inr ⟨x, hx, Or.inr hl⟩, ?_, ?_⟩
      · intro hm
        have := mem_normalize hm
        omega
      · rw [← e0]
        exact hne
  refine ⟨?_, fun c h => (hcode c h).1, ?_, build_sub (parse name) hform ch hposs⟩
  · intro hm
    rcases mem_text hm with h | h | h | h | ⟨t, h, h'⟩ | ⟨t, h, h'⟩ | ⟨t, h, h'⟩
    · exact hsemi (hin.1 _ h)
    · omega
    · omega
    · omega
    · unfold Choice.apply at h
      dsimp only at h
      split at h
      · exact hsemi (hin.2.1 t h _ h')
      · cases h
    · exact (hcode t h).2.1 h'
    · unfold Choice.apply at h
      dsimp only at h
      split at h
      · exact hsemi (hin.2.2.2 t h _ h')
      · cases h
  · have := build_head (ch.apply (normOf (parse name)) (parse name)) (fun e => (hcode [] e).2.2 rfl)
    cases hb : build (ch.apply (normOf (parse name)) (parse name)) with
    | nil => rw [hb] at this; cases this
    | cons a l =>
      rw [hb] at this
      injection this with this
      exact ⟨l, by rw [this]⟩

theorem archive_none {db : Db D} (hr : Regular db) {c : Nat} (hc : Category c) {name : List Nat} :
    findArchive db c name = none ↔ ∀ x ∈ build (parse name), db.archive x = none := by
  unfold findArchive
  cases h : (build (parse name)).findSome? db.archive with
  | none =>
    dsimp only
    rw [List.findSome?_eq_none_iff] at h
    exact ⟨fun _ => h, fun _ => rfl⟩
  | some r =>
    obtain ⟨l1, x, l2, e, hx, _⟩ := List.findSome?_eq_some_iff.1 h
    have := hr.complete x r c hx hc
    dsimp only
    constructor
    · intro h'
      rw [Option.map_eq_none_iff] at h'
      exact absurd h' this
    · intro h'
      have := h' x (by rw [e]; simp)
      rw [hx] at this
      cases this

/-- **C89**: what is found under a name is found again under the name that the category then has. -/
theorem find_again {db : Db D} (hr : Regular db) {c : Nat} (hc : Category c) {name : List Nat} (ht : Tidy name) (hC : ¬ (name = txt "C" ∨ name = txt "POSIX"))
    {v : List Nat × D} (h : find db c name = some v) : find db c v.1 = some v ∧ Tidy v.1 ∧ ¬ (v.1 = txt "C" ∨ v.1 = txt "POSIX") := by
  have hfind := h
  unfold find at h
  cases ha : findArchive db c name with
  | some w =>
    rw [ha] at h
    dsimp only at h
    injection h with h
    subst h
    have hw : w.1 = name := by
      unfold findArchive at ha
      split at ha
      · cases ha
      · rename_i r _
        obtain ⟨d, _, hd⟩ := Option.map_eq_some_iff.1 ha
        rw [← hd]
    rw [hw]
    exact ⟨hfind, ht, hC⟩
  | none =>
    rw [ha] at h
    dsimp only at h
    unfold findFile at h
    obtain ⟨p1, lp, p2, hp, hlp, hbefore⟩ := List.findSome?_eq_some_iff.1 h
    obtain ⟨l1, cand, l2, hl, hcand, _⟩ := List.findSome?_eq_some_iff.1 hlp
    obtain ⟨d, hd, hv⟩ := Option.map_eq_some_iff.1 hcand
    subst hv
    have hmem : cand ∈ build (parse name) := by rw [hl]; simp
    obtain ⟨h59, hform, ⟨tl, htl⟩, hsub⟩ := cand_spec ht hmem
    obtain ⟨d1, d2, d3⟩ := hr.dirs lp (by rw [hp]; simp) cand c d hd
    refine ⟨?_, ⟨d1, h59, hform⟩, not_or.2 ⟨d2, d3⟩⟩
    dsimp only
    unfold find
    have hna : findArchive db c cand = none := by
      rw [archive_none hr hc] at ha ⊢
      exact fun x hx => ha x (hsub x hx)
    rw [hna]
    dsimp only
    unfold findFile
    rw [List.findSome?_eq_some_iff]
    refine ⟨p1, lp, p2, hp, ?_, ?_⟩
    · rw [htl, List.findSome?_cons, hd]
      rfl
    · intro a ha'
      have := hbefore a ha'
      rw [List.findSome?_eq_none_iff] at this ⊢
      exact fun x hx => this x (hsub x hx)

/-- What holds in every reachable locale. -/
structure Inv (db : Db D) (loc : Loc D) : Prop where
  faithful : Faithful db loc
  tidy : ∀ c, Category c → Tidy (loc.cat c).1
  all : loc.all = (updateName loc).all

theorem tidy_C : Tidy (txt "C") := by
  refine ⟨by decide +kernel, by decide +kernel, ?_⟩
  intro c h
  have : (parse (txt "C")).code = none := by decide +kernel
  rw [this] at h
  cases h

theorem Selects.again {db : Db D} (hr : Regular db) {c : Nat} (hc : Category c) {name : List Nat} (ht : Tidy name) {v : List Nat × D} (h : Selects db c name v) :
    Selects db c v.1 v ∧ Tidy v.1 := by
  unfold Selects at h
  split at h
  · subst h
    refine ⟨?_, tidy_C⟩
    unfold Selects
    rw [if_pos (Or.inl rfl)]
  · rename_i hC
    obtain ⟨h1, h2, h3⟩ := find_again hr hc ht hC h
    refine ⟨?_, h2⟩
    unfold Selects
    rw [if_neg h3]
    exact h1

theorem Inv.clean {db : Db D} {loc : Loc D} (h : Inv db loc) : Clean loc := fun c hc => ⟨(h.tidy c hc).1, (h.tidy c hc).2.1⟩

theorem inv_fresh (db : Db D) : Inv db (fresh db) where
  faithful := by
    intro c _
    show Selects db c (txt "C") (txt "C", db.c0 c)
    unfold Selects
    rw [if_pos (Or.inl rfl)]
  tidy := fun c _ => tidy_C
  all := by
    show txt "C" = if cats.all (fun _ => txt "C" == txt "C") then txt "C" else composite (fresh db) cats
    rw [if_pos (by decide +kernel)]

theorem inv_of_selects {db : Db D} (hr : Regular db) (loc' : Loc D) (h : ∀ c, Category c → ∃ n, Tidy n ∧ Selects db c n (loc'.cat c)) : Inv db (updateName loc') where
  faithful := by
    intro c hc
    obtain ⟨n, hn, hs⟩ := h c hc
    exact (hs.again hr hc hn).1
  tidy := by
    intro c hc
    obtain ⟨n, hn, hs⟩ := h c hc
    exact (hs.again hr hc hn).2
  all := rfl

/-- The names of a tidy argument. -/
theorem tidyArg_names {name : List Nat} (h : TidyArg D name) :
    name ≠ [] ∧ ∃ comp, parseComposite cats name = .ok comp ∧ ∀ c, Category c → Tidy (nameFor comp name c) := by
  rcases h with h | ⟨l, hl, rfl⟩
  · exact ⟨h.1, none, parse_simple name h.2.1, fun c _ => h⟩
  · refine ⟨?_, some (cats.map fun c => (c, (l.cat c).1)), parse_composite_cats l (fun c hc => ⟨(hl c hc).1, (hl c hc).2.1⟩), ?_⟩
    · intro e
      have := congrArg List.length e
      unfold cats at this
      simp only [composite, List.length_append, List.length_nil] at this
      simp at this
    · intro c hc
      rw [nameFor_composite l _ c hc]
      exact hl c hc

theorem inv_all {db : Db D} (hr : Regular db) (env : List Nat → Option (List Nat)) {loc loc' : Loc D} {name n : List Nat} (hn : TidyArg D name)
    (h : setlocale db env loc 6 (some name) = .ok (some n, loc')) : Inv db loc' := by
  obtain ⟨hne, comp, hp, htidy⟩ := tidyArg_names hn
  rw [setlocale_all_eq db env loc name hne] at h
  rcases all_spec db loc name comp hp with ⟨l, h1, h2⟩ | ⟨l, h1, _⟩
  · rw [h1] at h
    injection h with h
    injection h with _ h
    subst h
    exact inv_of_selects hr l (fun c hc => ⟨_, htidy c hc, h2 c hc⟩)
  · rw [h1] at h
    injection h with h
    injection h with h _
    cases h

theorem inv_env {db : Db D} (hr : Regular db) {env : List Nat → Option (List Nat)} (he : TidyEnv D env) {loc loc' : Loc D} {c : Nat} {n : List Nat} (hc : c ≤ 12)
    (h : setlocale db env loc c (some []) = .ok (some n, loc')) : Inv db loc' := by
  by_cases hcase : c = 6 ∧ ¬ EnvUnset env "LC_ALL"
  · obtain ⟨rfl, hset⟩ := hcase
    cases hv : nonEmpty env (txt "LC_ALL") with
    | none => exact absurd (nonEmpty_none hv) hset
    | some v =>
      have hv' := nonEmpty_some hv
      rw [setlocale_env_all db env loc v hv'] at h
      exact inv_all hr env (he.all v hv') h
  · have h6 : c = 6 → EnvUnset env "LC_ALL" := by
      intro e
      exact Classical.byContradiction fun hx => hcase ⟨e, hx⟩
    rcases env_spec db env loc c h6 hc with ⟨l, m, h1, h2⟩ | ⟨l, h1, _⟩
    · rw [h1] at h
      injection h with h
      injection h with _ h
      subst h
      refine inv_of_selects hr l ?_
      intro e hce
      obtain ⟨n', hn', hs⟩ := h2 e hce
      refine ⟨n', ?_, hs⟩
      cases hn' with
      | own hx => exact he.own e n' hce hx
      | lang _ hx => exact he.lang n' hx
      | none_ _ _ => exact tidy_C
    · rw [h1] at h
      injection h with h
      injection h with h _
      cases h

theorem reach_inv {db : Db D} (hr : Regular db) {env : List Nat → Option (List Nat)} (he : TidyEnv D env) {loc : Loc D} (h : Reach db env loc) : Inv db loc := by
  induction h with
  | start => exact inv_fresh db
  | @query loc loc' c r _ hq ih =>
    have hq' : (nameOf loc c).bind (fun n => Res.ok (some n, loc)) = .ok (r, loc') := hq
    unfold nameOf at hq'
    split at hq'
    · injection hq' with e
      injection e with _ e
      rw [← e]
      exact ih
    · split at hq'
      · injection hq' with e
        injection e with _ e
        rw [← e]
        exact ih
      · cases hq'
  | @one loc loc' c name r _ hc hn hq ih =>
    cases name with
    | nil => exact absurd rfl hn.1
    | cons x name =>
      unfold setlocale at hq
      dsimp only at hq
      rw [if_neg hc.2, if_pos hc.1] at hq
      rcases applyCat_spec db loc c (x :: name) with ⟨v, h1, h2⟩ | ⟨h1, h2⟩
      · rw [h2] at hq
        dsimp only at hq
        unfold nameOf at hq
        rw [if_neg hc.2, if_pos hc.1] at hq
        injection hq with hq
        injection hq with _ hq
        rw [← hq]
        have hag := h1.again hr hc hn
        refine ⟨?_, ?_, rfl⟩
        · intro e hce
          show Selects db e ((setCat loc c v).cat e).1 ((setCat loc c v).cat e)
          by_cases hec : e = c
          · subst hec
            rw [setCat_self]
            exact hag.1
          · rw [setCat_ne loc v hec]
            exact ih.faithful e hce
        · intro e hce
          show Tidy ((setCat loc c v).cat e).1
          by_cases hec : e = c
          · subst hec
            rw [setCat_self]
            exact hag.2
          · rw [setCat_ne loc v hec]
            exact ih.tidy e hce
      · rw [h2] at hq
        injection hq with hq
        injection hq with _ hq
        rw [← hq]
        exact ih
  | all _ hn hq _ => exact inv_all hr env hn hq
  | env _ hc hq _ => exact inv_env hr he hc hq

/-- **C89**: save and restore. The name that setlocale(LC_ALL, NULL) gives in a reachable locale brings all categories back from whatever locale the
program is in then, and is an argument of the form that histories are about. -/
theorem save_restore {db : Db D} (hr : Regular db) {env : List Nat → Option (List Nat)} (he : TidyEnv D env) {loc : Loc D} (h : Reach db env loc) (cur : Loc D) :
    ∃ s loc', setlocale db env loc 6 none = .ok (some s, loc) ∧ TidyArg D s ∧ setlocale db env cur 6 (some s) = .ok (some s, loc') ∧
      ∀ c, Category c → loc'.cat c = loc.cat c := by
  have hi := reach_inv hr he h
  obtain ⟨loc', h1, h2⟩ := setlocale_restore db env loc cur hi.faithful hi.clean hi.all
  refine ⟨loc.all, loc', rfl, ?_, h1, h2⟩
  have ha := hi.all
  have hu : (updateName loc).all = if cats.all (fun c => (loc.cat c).1 == (loc.cat 0).1) then (loc.cat 0).1 else composite loc cats := rfl
  rw [hu] at ha
  split at ha
  · rw [ha]
    exact Or.inl (hi.tidy 0 (by unfold Category; omega))
  · exact Or.inr ⟨loc, hi.tidy, ha⟩

/-! ## newlocale -/

/-- **C89**: newlocale with a mask that has a bit that is no category fails with EINVAL and leaves the base alone. -/
theorem newlocale_mask (db : Db D) (mask : Nat) (name : List Nat) (base : Option (Loc D)) (c : Nat) (h : mask.testBit c = true) (hc : ¬ Category c) :
    newlocale db mask name base = .ok (.error 22 base) := by
  unfold newlocale
  rw [if_pos]
  intro e
  have h1 : (mask &&& 0x1FBF).testBit c = true := by rw [e]; exact h
  rw [Nat.testBit_and, h, Bool.true_and] at h1
  by_cases h13 : c < 13
  · have : c = 6 := by
      unfold Category at hc
      omega
    subst this
    revert h1
    decide
  · have : (0x1FBF : Nat).testBit c = false := Nat.testBit_lt_two_pow (Nat.lt_of_lt_of_le (by decide : 0x1FBF < 2 ^ 13) (Nat.pow_le_pow_right (by omega) (by omega)))
    rw [this] at h1
    cases h1

/-- **C89**: newlocale with a proper mask and one name: the categories of the mask are what the name selects, the others are those of the base (the C locale if
there is none); ENOENT if the name selects nothing for one of the categories. -/
theorem newlocale_spec (db : Db D) (mask : Nat) (name : List Nat) (base : Option (Loc D)) (hm : ∀ c, mask.testBit c = true → Category c) (hs : 59 ∉ name) :
    (∃ loc', newlocale db mask name base = .ok (.object loc') ∧ ∀ c, Category c → (mask.testBit c = true → Selects db c name (loc'.cat c)) ∧
      (mask.testBit c = false → loc'.cat c = match base with | some b => b.cat c | none => (txt "C", db.c0 c))) ∨
    (∃ b, newlocale db mask name base = .ok (.error 2 b) ∧ ∃ c, mask.testBit c = true ∧ ∀ v, ¬ Selects db c name v) := by
  have hok : mask &&& 0x1FBF = mask := by
    apply Nat.eq_of_testBit_eq
    intro i
    rw [Nat.testBit_and]
    cases hb : mask.testBit i with
    | false => rfl
    | true =>
      obtain ⟨h1, h2⟩ := hm i hb
      have : i = 0 ∨ i = 1 ∨ i = 2 ∨ i = 3 ∨ i = 4 ∨ i = 5 ∨ i = 7 ∨ i = 8 ∨ i = 9 ∨ i = 10 ∨ i = 11 ∨ i = 12 := by omega
      rcases this with rfl | rfl | rfl | rfl | rfl | rfl | rfl | rfl | rfl | rfl | rfl | rfl <;> decide
  have hmem : ∀ c, c ∈ cats.filter (mask.testBit ·) ↔ Category c ∧ mask.testBit c = true := by
    intro c
    rw [List.mem_filter, mem_cats]
  unfold newlocale
  rw [if_neg (fun h => h hok)]
  rcases loadLocale_spec db (cats.filter (mask.testBit ·)) (cats_nodup.sublist List.filter_sublist) name (base.getD (fresh db)) none (parse_simple name hs) with
    ⟨loc', h1, h2, h3⟩ | ⟨loc', h1, c, hc, h2⟩
  · left
    rw [h1]
    refine ⟨loc', rfl, ?_⟩
    intro c hc
    refine ⟨fun hb => h2 c ((hmem c).2 ⟨hc, hb⟩), ?_⟩
    intro hb
    rcases h3 with h3 | h3
    · have : c ∈ cats.filter (mask.testBit ·) := by rw [h3]; exact mem_cats.2 hc
      rw [((hmem c).1 this).2] at hb
      cases hb
    · rw [h3 c (fun h => by rw [((hmem c).1 h).2] at hb; cases hb)]
      cases base <;> rfl
  · right
    rw [h1]
    exact ⟨_, rfl, c, ((hmem c).1 hc).2, h2⟩

/-! ## Examples, and what is not as it should be -/

/-- A system with de_DE.utf8 complete and fr_FR without LC_IDENTIFICATION. -/
def exDb : Db Nat where
  paths := [txt "/l"]
  archive := fun _ => none
  file := fun p c => if p = filePath (txt "/l") (txt "de_DE.utf8") c then some (100 + c) else if p = filePath (txt "/l") (txt "fr_FR") c ∧ c ≠ 12 then some (200 + c) else none
  c0 := fun c => c

def exEnv : List Nat → Option (List Nat) := fun v => if v = txt "LANG" then some (txt "de_DE.UTF-8") else if v = txt "LC_TIME" then some (txt "fr_FR@euro") else none

theorem filePath_inj {lp a b : List Nat} {c : Nat} (h : filePath lp a c = filePath lp b c) : a = b := by
  unfold filePath at h
  simp only [List.append_assoc] at h
  exact List.append_cancel_right (List.append_cancel_left (List.append_cancel_left h))

theorem exDb_regular : Regular exDb where
  complete := by intro n r c h; cases h
  dirs := by
    intro lp hlp dir c d h
    have : lp = txt "/l" := by simpa [exDb] using hlp
    subst this
    unfold exDb at h
    dsimp only at h
    split at h
    · rename_i h1
      rw [filePath_inj h1]
      decide +kernel
    · split at h
      · rename_i h1
        rw [filePath_inj h1.1]
        decide +kernel
      · cases h

theorem tidy_of {s : List Nat} (h : s ≠ [] ∧ 59 ∉ s ∧ ((parse s).code.getD [65]).any (fun x => (65 ≤ x && x ≤ 90) || (97 ≤ x && x ≤ 122)) = true) : Tidy s := by
  refine ⟨h.1, h.2.1, ?_⟩
  intro c hc
  have := h.2.2
  rw [hc] at this
  obtain ⟨x, hx, hl⟩ := List.any_eq_true.1 this
  exact Or.inr ⟨x, hx, by simpa using hl⟩

theorem exEnv_tidy : TidyEnv Nat exEnv where
  all := by
    intro v h
    have h0 : exEnv (txt "LC_ALL") = none := by decide +kernel
    rw [h.1] at h0
    cases h0
  own := by
    intro c v hc h
    by_cases h2 : c = 2
    · subst h2
      have h0 : exEnv (txt (variable_ 2)) = some (txt "fr_FR@euro") := by decide +kernel
      rw [h.1] at h0
      injection h0 with h0
      rw [h0]
      exact tidy_of (by decide +kernel)
    · exfalso
      have h0 : exEnv (txt (variable_ c)) = none := by
        obtain ⟨h1, h3⟩ := hc
        have : c = 0 ∨ c = 1 ∨ c = 3 ∨ c = 4 ∨ c = 5 ∨ c = 7 ∨ c = 8 ∨ c = 9 ∨ c = 10 ∨ c = 11 ∨ c = 12 := by omega
        rcases this with rfl | rfl | rfl | rfl | rfl | rfl | rfl | rfl | rfl | rfl | rfl <;> decide +kernel
      rw [h.1] at h0
      cases h0
  lang := by
    intro v h
    have h0 : exEnv (txt "LANG") = some (txt "de_DE.UTF-8") := by decide +kernel
    rw [h.1] at h0
    injection h0 with h0
    rw [h0]
    exact tidy_of (by decide +kernel)

/-- What can be seen of the result. -/
def view (r : Res (Option (List Nat) × Loc Nat)) : Option (Option (List Nat) × List (List Nat × Nat) × List Nat) :=
  match r with
  | .ok (n, loc) => some (n, cats.map loc.cat, loc.all)
  | _ => none

/-- setlocale(LC_ALL, "") there: LC_TIME is fr_FR, the others are de_DE.utf8, and the name is a list; it is reachable. -/
example : view (setlocale exDb exEnv (fresh exDb) 6 (some [])) = some (
    some (txt "LC_CTYPE=de_DE.utf8;LC_NUMERIC=de_DE.utf8;LC_TIME=fr_FR;LC_COLLATE=de_DE.utf8;LC_MONETARY=de_DE.utf8;LC_MESSAGES=de_DE.utf8;LC_PAPER=de_DE.utf8;LC_NAME=de_DE.utf8;LC_ADDRESS=de_DE.utf8;LC_TELEPHONE=de_DE.utf8;LC_MEASUREMENT=de_DE.utf8;LC_IDENTIFICATION=de_DE.utf8"),
    cats.map (fun c => if c = 2 then (txt "fr_FR", 202) else (txt "de_DE.utf8", 100 + c)),
    txt "LC_CTYPE=de_DE.utf8;LC_NUMERIC=de_DE.utf8;LC_TIME=fr_FR;LC_COLLATE=de_DE.utf8;LC_MONETARY=de_DE.utf8;LC_MESSAGES=de_DE.utf8;LC_PAPER=de_DE.utf8;LC_NAME=de_DE.utf8;LC_ADDRESS=de_DE.utf8;LC_TELEPHONE=de_DE.utf8;LC_MEASUREMENT=de_DE.utf8;LC_IDENTIFICATION=de_DE.utf8") := by
  decide +kernel

example : ∃ loc, Reach exDb exEnv loc ∧ (loc.cat 2).2 = 202 := by
  have h : (match setlocale exDb exEnv (fresh exDb) 6 (some []) with | .ok (some _, loc) => (loc.cat 2).2 | _ => 0) = 202 := by decide +kernel
  cases hq : setlocale exDb exEnv (fresh exDb) 6 (some []) with
  | ok r =>
    obtain ⟨n, loc⟩ := r
    rw [hq] at h
    cases n with
    | none => exact absurd (show (0 : Nat) = 202 from h) (by decide)
    | some n => exact ⟨loc, .env .start (by omega) hq, h⟩
  | ub => rw [hq] at h; exact absurd h (by decide)
  | panic => rw [hq] at h; exact absurd h (by decide)

/-- Violation: a call of setlocale(LC_ALL, name) that returns NULL has changed the locale, and the name that is then given for all categories does not tell
(C17 7.11.1.1p8: if the selection cannot be honored, the locale is not changed). -/
theorem failed_all_violated :
    view (setlocale exDb exEnv (fresh exDb) 6 (some (txt "fr_FR"))) =
      some (none, cats.map (fun c => if c = 12 then (txt "C", 12) else (txt "fr_FR", 200 + c)), txt "C") := by
  decide +kernel

/-- Violation: setlocale(LC_TIME, "") changes all other categories too. -/
theorem single_env_violated :
    (view (setlocale exDb exEnv (fresh exDb) 2 (some []))).map (fun r => (r.1, r.2.1[0]?)) = some (some (txt "fr_FR"), some (txt "de_DE.utf8", 100)) := by
  decide +kernel

/-- Violation: LC_ALL in the environment does not count for one category: setlocale(LC_TIME, "") gives C where POSIX 8.2 says that LC_ALL comes first. -/
theorem lc_all_env_violated :
    (view (setlocale exDb (fun v => if v = txt "LC_ALL" then some (txt "fr_FR") else none) (fresh exDb) 2 (some []))).map (·.1) = some (some (txt "C")) := by
  decide +kernel

/-- Violation: a category that is none of those in <locale.h> is undefined behaviour, not NULL. -/
theorem bad_category_violated (db : Db D) (env : List Nat → Option (List Nat)) (loc : Loc D) (c : Nat) (h : 12 < c) (x : Nat) (name : List Nat) :
    setlocale db env loc c none = .ub ∧ setlocale db env loc c (some (x :: name)) = .ub := by
  constructor
  · show (nameOf loc c).bind _ = _
    unfold nameOf
    rw [if_neg (by omega), if_neg (by omega)]
    rfl
  · unfold setlocale
    dsimp only
    rw [if_neg (by omega), if_neg (by omega)]

/-- Violation: newlocale(mask, "", 0) does not look at the environment: it fails where setlocale(LC_ALL, "") does not. -/
theorem newlocale_env_violated :
    newlocale exDb 0x1FBF [] none = .ok (.error 2 none) := by
  have : (match newlocale exDb 0x1FBF [] none with | .ok (.error e none) => e | _ => 0) = 2 := by decide +kernel
  revert this
  cases newlocale exDb 0x1FBF [] none with
  | ok r =>
    cases r with
    | error e b =>
      cases b with
      | none => intro h; exact congrArg (fun e => Res.ok (NewOut.error e none)) h
      | some b => intro h; exact absurd (show (0 : Nat) = 2 from h) (by decide)
    | object l => intro h; exact absurd (show (0 : Nat) = 2 from h) (by decide)
  | ub => intro h; exact absurd h (by decide)
  | panic => intro h; exact absurd h (by decide)

/-- Violation: a newlocale that fails has changed the object that was passed as base (POSIX: it is then left unchanged). -/
theorem newlocale_base_violated :
    (match newlocale exDb 0x1FBF (txt "fr_FR") (some (fresh exDb)) with | .ok (.error e (some b)) => (e, b.cat 0) | _ => (0, [], 0)) = (2, txt "fr_FR", 200) := by
  decide +kernel

/-- A system with an archive. -/
def arDb : Db Nat := ⟨[], fun n => if n = txt "de_DE" then some (fun c => some (300 + c)) else none, fun _ _ => none, fun c => c⟩

/-- Violation: with an archive the category keeps the name as it was given; with a ";" in the modifier the name of all categories is then not one that setlocale
takes: it returns NULL, after setting nothing. -/
theorem semicolon_violated :
    (match setlocale arDb exEnv (fresh arDb) 0 (some (txt "de_DE@a;b")) with
      | .ok (some n, loc) => (match setlocale arDb exEnv (fresh arDb) 6 (some loc.all) with | .ok (r, loc') => some (n, r, loc.cat 0, loc'.cat 0) | _ => none)
      | _ => none) = some (txt "de_DE@a;b", none, (txt "de_DE@a;b", 300), (txt "C", 0)) := by
  decide +kernel

/-- Violation: the name of a category is used as the view that is behind the end of the text when the last item has no "=". -/
theorem composite_end_violated (loc : Loc Nat) : setlocale arDb exEnv loc 6 (some (txt "LC_CTYPE=C;LC_NUMERIC=C;LC_TIME=C;LC_COLLATE=C;LC_MONETARY=C;LC_MESSAGES=C;LC_PAPER=C;LC_NAME=C;LC_ADDRESS=C;LC_TELEPHONE=C;LC_MEASUREMENT=C;LC_IDENTIFICATION")) = .ub := by
  have h : parseComposite cats (txt "LC_CTYPE=C;LC_NUMERIC=C;LC_TIME=C;LC_COLLATE=C;LC_MONETARY=C;LC_MESSAGES=C;LC_PAPER=C;LC_NAME=C;LC_ADDRESS=C;LC_TELEPHONE=C;LC_MEASUREMENT=C;LC_IDENTIFICATION") = .ub := by decide +kernel
  rw [setlocale_all_eq _ _ _ _ (by decide +kernel)]
  unfold loadLocale
  rw [if_neg (by decide +kernel), h]
  rfl

end Mlibc.Locale
