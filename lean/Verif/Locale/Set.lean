import Verif.Locale.Names

/-
setlocale and newlocale (options/ansi/generic/locale.cpp, options/internal/generic/locale.cpp, options/posix/generic/posix_locale.cpp). The data of a
category (its members) are of any type `D`; what an archive record or a file contains is a parameter. Property C89.
-/
namespace Mlibc.Locale
open Mlibc

/-! ## The code -/

/-- What the system has: the search path (locale.cpp L308-329), the archive (name to the categories of its record) and the parsed files by path. Files do not
change while the program runs (the cache of open files is not seen then). `c0` is the content of the C locale. -/
structure Db (D : Type) where
  paths : List (List Nat)
  archive : List Nat → Option (Nat → Option D)
  file : List Nat → Nat → Option D
  c0 : Nat → D

/-- A `localeinfo` (internal locale.hpp L225-239): for each category its name and data, and the name of all. -/
structure Loc (D : Type) where
  cat : Nat → List Nat × D
  all : List Nat

variable {D : Type}

/-- locale.cpp L40-54 `lcNames`. -/
def lcName : Nat → List Nat
  | 0 => txt "LC_CTYPE" | 1 => txt "LC_NUMERIC" | 2 => txt "LC_TIME" | 3 => txt "LC_COLLATE" | 4 => txt "LC_MONETARY" | 5 => txt "LC_MESSAGES"
  | 6 => txt "LC_ALL" | 7 => txt "LC_PAPER" | 8 => txt "LC_NAME" | 9 => txt "LC_ADDRESS" | 10 => txt "LC_TELEPHONE" | 11 => txt "LC_MEASUREMENT"
  | _ => txt "LC_IDENTIFICATION"

/-- The categories 0 to 12 without LC_ALL (6), in the order of the loops of locale.cpp L269, L633 and of the calls in ansi locale.cpp L46-57. -/
def cats : List Nat := [0, 1, 2, 3, 4, 5, 7, 8, 9, 10, 11, 12]

/-- locale.cpp L546-572 `findLocaleArchiveRecord` with L375-413: the first of the names that the archive has; the category keeps the name asked for. -/
def findArchive (db : Db D) (cat : Nat) (name : List Nat) : Option (List Nat × D) :=
  match (build (parse name)).findSome? db.archive with
  | none => none
  | some rec => (rec cat).map fun d => (name, d)

/-- locale.cpp L514-521, the path of a file. -/
def filePath (lp cand : List Nat) (cat : Nat) : List Nat :=
  lp ++ [47] ++ cand ++ [47] ++ (if cat = 5 then txt "LC_MESSAGES/SYS_LC_MESSAGES" else lcName cat)

/-- locale.cpp L508-544 `findLocaleFileRecord`: the category gets the name of the file. -/
def findFile (db : Db D) (cat : Nat) (name : List Nat) : Option (List Nat × D) :=
  db.paths.findSome? fun lp => (build (parse name)).findSome? fun cand => (db.file (filePath lp cand cat) cat).map fun d => (cand, d)

/-- locale.cpp L701-709, and L752-754 in loadLocale: the archive first. -/
def find (db : Db D) (cat : Nat) (name : List Nat) : Option (List Nat × D) :=
  match findArchive db cat name with
  | some v => some v
  | none => findFile db cat name

def isC (name : List Nat) : Bool := name == txt "C" || name == txt "POSIX"

def setCat (loc : Loc D) (cat : Nat) (v : List Nat × D) : Loc D := { loc with cat := fun c => if c = cat then v else loc.cat c }

/-- locale.cpp L646-712 `applyCategory`, for one of the categories; C and POSIX give the C locale with the name "C" (the assignment of the members also
assigns the name, L650-651). -/
def applyCat (db : Db D) (loc : Loc D) (cat : Nat) (name : List Nat) : Option (Loc D) :=
  if isC name then some (setCat loc cat (txt "C", db.c0 cat))
  else (find db cat name).map (setCat loc cat)

/-- locale.cpp L633-643, the composite name. -/
def composite (loc : Loc D) : List Nat → List Nat
  | [] => []
  | c :: cs => lcName c ++ [61] ++ (loc.cat c).1 ++ (if c = 12 then [] else [59]) ++ composite loc cs

/-- locale.cpp L618-642 `updateLocaleName`. -/
def updateName (loc : Loc D) : Loc D :=
  { loc with all := if cats.all (fun c => (loc.cat c).1 == (loc.cat 0).1) then (loc.cat 0).1 else composite loc cats }

/-- locale.cpp L264-300 `parseCompositeLocaleName`, from one category on. Without "=" the value would be the view `sub_string(size + 1, -1)`; it is of no
consequence, but for the last category it is used as a name (frigg is not in /repo: its check `from + size <= length` is taken to be made in size_t). -/
def parseComposite : List Nat → List Nat → Res (Option (List (Nat × List Nat)))
  | [], _ => .ok none
  | c :: cs, s =>
    if s.takeWhile (· ≠ 61) ≠ lcName c then .ok none
    else if 61 ∉ s then (if c = 12 then .ub else .ok none)
    else
      let v := s.drop ((s.takeWhile (· ≠ 61)).length + 1)
      let value := v.takeWhile (· ≠ 59)
      if value = [] then .ok none
      else if 59 ∉ v then (if c = 12 then .ok (some [(c, value)]) else .ok none)
      else
        (parseComposite cs (v.drop (value.length + 1))).bind fun
          | none => .ok none
          | some r => .ok (some ((c, value) :: r))

/-- `composite.value()[cat]` (locale.cpp L744-747), else the name. -/
def nameFor (comp : Option (List (Nat × List Nat))) (name : List Nat) (cat : Nat) : List Nat :=
  match comp with
  | none => name
  | some r => (r.lookup cat).getD []

/-- The loop of loadLocale over the bits of the mask, locale.cpp L740-762; the object is changed on the way. -/
def loadLoop (db : Db D) (nameOf : Nat → List Nat) : List Nat → Loc D → Bool × Loc D
  | [], loc => (true, loc)
  | c :: cs, loc =>
    if isC (nameOf c) then loadLoop db nameOf cs (setCat loc c (txt "C", db.c0 c))
    else
      match find db c (nameOf c) with
      | some v => loadLoop db nameOf cs (setCat loc c v)
      | none => (false, loc)

/-- A new `localeinfo`: the C locale. locale.hpp L226-239 -/
def fresh (db : Db D) : Loc D := ⟨fun c => (txt "C", db.c0 c), txt "C"⟩

/-- locale.cpp L722-776 `loadLocale` for the categories `cs`: whether it succeeds, the object it gives, and what `*base` was before is then. -/
def loadLocale (db : Db D) (cs : List Nat) (name : List Nat) (base : Loc D) : Res (Bool × Loc D) :=
  if isC name ∧ cs = cats then .ok (true, fresh db)
  else
    (parseComposite cats name).bind fun comp =>
      match loadLoop db (nameFor comp name) cs base with
      | (true, loc) => .ok (true, updateName loc)
      | (false, loc) => .ok (false, loc)

/-- `if (auto e = getenv(..); e && strlen(e))` -/
def nonEmpty (env : List Nat → Option (List Nat)) (n : List Nat) : Option (List Nat) :=
  match env n with
  | some v => if v = [] then none else some v
  | none => none

/-- The calls of `applyEnvCategory` and `applyLang`, ansi locale.cpp L46-88: for each category the name, if it is to be set. -/
def envLoop (db : Db D) (pick : Nat → Option (List Nat)) : List Nat → Loc D → Bool × Loc D
  | [], loc => (true, loc)
  | c :: cs, loc =>
    match pick c with
    | none => envLoop db pick cs loc
    | some n =>
      match applyCat db loc c n with
      | none => (false, loc)
      | some loc' => envLoop db pick cs loc'

/-- `getCategoryLocaleName` locale.cpp L578-597. -/
def nameOf (loc : Loc D) (category : Nat) : Res (List Nat) :=
  if category = 6 then .ok loc.all else if category ≤ 12 then .ok (loc.cat category).1 else .ub

/-- ansi locale.cpp L12-113 `setlocale`, for a category that is not negative. Result: the name or NULL, and the global locale. -/
def setlocale (db : Db D) (env : List Nat → Option (List Nat)) (loc : Loc D) (category : Nat) (name : Option (List Nat)) :
    Res (Option (List Nat) × Loc D) :=
  match name with
  | none => (nameOf loc category).bind fun n => .ok (some n, loc)
  | some [] =>
    match (if category = 6 then nonEmpty env (txt "LC_ALL") else none) with
    | some v =>
      (loadLocale db cats v loc).bind fun r => if r.1 then .ok (some (updateName r.2).all, updateName r.2) else .ok (none, r.2)
    | none =>
      let own := fun c => nonEmpty env (lcName c)
      let lang := match nonEmpty env (txt "LANG") with | some v => v | none => txt "C"
      match envLoop db own cats loc with
      | (false, loc) => .ok (none, loc)
      | (true, loc) =>
        match envLoop db (fun c => if (own c).isSome then none else some lang) cats loc with
        | (false, loc) => .ok (none, loc)
        | (true, loc) => (nameOf (updateName loc) category).bind fun n => .ok (some n, updateName loc)
  | some name =>
    if category = 6 then
      (loadLocale db cats name loc).bind fun r => if r.1 then .ok (some (updateName r.2).all, updateName r.2) else .ok (none, r.2)
    else if category ≤ 12 then
      match applyCat db loc category name with
      | none => .ok (none, loc)
      | some loc => (nameOf (updateName loc) category).bind fun n => .ok (some n, updateName loc)
    else .ub

/-- What newlocale gives: an error, or an object; and what happened to the object that was passed as base. -/
inductive NewOut (D : Type) where
  | error (errno : Nat) (base : Option (Loc D))
  | object (loc : Loc D)

/-- posix_locale.cpp L7-15 `newlocale` with `loadLocale` (EINVAL 22, ENOENT 2); the bits of the mask are the categories. -/
def newlocale (db : Db D) (mask : Nat) (name : List Nat) (base : Option (Loc D)) : Res (NewOut D) :=
  if mask &&& 0x1FBF ≠ mask then .ok (.error 22 base)
  else
    (loadLocale db (cats.filter (mask.testBit ·)) name (base.getD (fresh db))).bind fun r =>
      if r.1 then .ok (.object r.2) else .ok (.error 2 (base.map fun _ => r.2))

/-! ## Specification -/

/-- A category (LC_ALL is not one). -/
def Category (c : Nat) : Prop := c ≤ 12 ∧ c ≠ 6

/-- What a name selects for a category. -/
def Selects (db : Db D) (cat : Nat) (name : List Nat) (v : List Nat × D) : Prop :=
  if name = txt "C" ∨ name = txt "POSIX" then v = (txt "C", db.c0 cat) else find db cat name = some v

/-- The environment variable has a value that is not empty. -/
def EnvIs (env : List Nat → Option (List Nat)) (var : String) (v : List Nat) : Prop := env (txt var) = some v ∧ v ≠ []

def EnvUnset (env : List Nat → Option (List Nat)) (var : String) : Prop := env (txt var) = none ∨ env (txt var) = some []

/-- The variable of a category. -/
def variable_ : Nat → String
  | 0 => "LC_CTYPE" | 1 => "LC_NUMERIC" | 2 => "LC_TIME" | 3 => "LC_COLLATE" | 4 => "LC_MONETARY" | 5 => "LC_MESSAGES" | 7 => "LC_PAPER" | 8 => "LC_NAME"
  | 9 => "LC_ADDRESS" | 10 => "LC_TELEPHONE" | 11 => "LC_MEASUREMENT" | 12 => "LC_IDENTIFICATION" | _ => "LC_ALL"

/-- The name that the environment gives for a category when LC_ALL is not set (POSIX 8.2). -/
inductive EnvName (env : List Nat → Option (List Nat)) (c : Nat) : List Nat → Prop
  | own {v : List Nat} : EnvIs env (variable_ c) v → EnvName env c v
  | lang {v : List Nat} : EnvUnset env (variable_ c) → EnvIs env "LANG" v → EnvName env c v
  | none_ : EnvUnset env (variable_ c) → EnvUnset env "LANG" → EnvName env c (txt "C")

/-- Everything in the locale is what the system has under its name. -/
def Faithful (db : Db D) (loc : Loc D) : Prop := ∀ c, Category c → Selects db c (loc.cat c).1 (loc.cat c)

/-- The names can be put in a list. -/
def Clean (loc : Loc D) : Prop := ∀ c, Category c → (loc.cat c).1 ≠ [] ∧ 59 ∉ (loc.cat c).1

/-- Two locales have the same categories. -/
def Same (a b : Loc D) : Prop := ∀ c, Category c → a.cat c = b.cat c

/-! ## Proofs: single categories -/

theorem mem_cats {c : Nat} : c ∈ cats ↔ Category c := by
  unfold cats Category
  simp only [List.mem_cons, List.not_mem_nil, or_false]
  omega

theorem isC_iff {name : List Nat} : isC name = true ↔ name = txt "C" ∨ name = txt "POSIX" := by
  unfold isC
  simp

theorem setCat_self (loc : Loc D) (c : Nat) (v : List Nat × D) : (setCat loc c v).cat c = v := if_pos rfl

theorem setCat_ne (loc : Loc D) {c e : Nat} (v : List Nat × D) (h : e ≠ c) : (setCat loc c v).cat e = loc.cat e := if_neg h

theorem applyCat_spec (db : Db D) (loc : Loc D) (c : Nat) (name : List Nat) :
    (∃ v, Selects db c name v ∧ applyCat db loc c name = some (setCat loc c v)) ∨ ((∀ v, ¬ Selects db c name v) ∧ applyCat db loc c name = none) := by
  unfold applyCat Selects
  by_cases h : isC name = true
  · have h' := isC_iff.1 h
    left
    refine ⟨(txt "C", db.c0 c), ?_, if_pos h⟩
    rw [if_pos h']
  · have h' : ¬ (name = txt "C" ∨ name = txt "POSIX") := fun e => h (isC_iff.2 e)
    rw [if_neg h]
    cases hf : find db c name with
    | none =>
      right
      refine ⟨fun v => ?_, rfl⟩
      rw [if_neg h']
      exact fun e => by cases e
    | some v =>
      left
      refine ⟨v, ?_, rfl⟩
      rw [if_neg h']

theorem Selects.unique {db : Db D} {c : Nat} {name : List Nat} {v w : List Nat × D} (h1 : Selects db c name v) (h2 : Selects db c name w) : v = w := by
  unfold Selects at *
  split at h1
  · rename_i h; rw [if_pos h] at h2; rw [h1, h2]
  · rename_i h; rw [if_neg h, h1] at h2; injection h2

/-- **C89**: asking changes nothing and gives the name. -/
theorem setlocale_query (db : Db D) (env : List Nat → Option (List Nat)) (loc : Loc D) (c : Nat) (hc : Category c) :
    setlocale db env loc c none = .ok (some (loc.cat c).1, loc) ∧ setlocale db env loc 6 none = .ok (some loc.all, loc) := by
  refine ⟨?_, rfl⟩
  show (nameOf loc c).bind _ = _
  unfold nameOf
  rw [if_neg hc.2, if_pos hc.1]
  rfl

/-- **C89**: setting one category sets it to what the name selects and nothing else; if the name selects nothing, nothing is changed. -/
theorem setlocale_category (db : Db D) (env : List Nat → Option (List Nat)) (loc : Loc D) (c : Nat) (hc : Category c) (name : List Nat) (hn : name ≠ []) :
    (∃ v loc', Selects db c name v ∧ setlocale db env loc c (some name) = .ok (some v.1, loc') ∧ loc'.cat c = v ∧ ∀ e, e ≠ c → loc'.cat e = loc.cat e) ∨
    ((∀ v, ¬ Selects db c name v) ∧ setlocale db env loc c (some name) = .ok (none, loc)) := by
  cases name with
  | nil => exact absurd rfl hn
  | cons x name =>
    unfold setlocale
    dsimp only
    rw [if_neg hc.2, if_pos hc.1]
    rcases applyCat_spec db loc c (x :: name) with ⟨v, h1, h2⟩ | ⟨h1, h2⟩
    · left
      refine ⟨v, updateName (setCat loc c v), h1, ?_, setCat_self loc c v, fun e he => setCat_ne loc v he⟩
      rw [h2]
      dsimp only
      unfold nameOf
      rw [if_neg hc.2, if_pos hc.1]
      show Res.ok (some ((setCat loc c v).cat c).1, _) = _
      rw [setCat_self]
    · right
      refine ⟨h1, ?_⟩
      rw [h2]

/-! ## All categories -/

theorem loadLoop_spec (db : Db D) (names : Nat → List Nat) (cs : List Nat) (hnd : cs.Nodup) (loc : Loc D) :
    (∃ loc', loadLoop db names cs loc = (true, loc') ∧ loc'.all = loc.all ∧ (∀ c ∈ cs, Selects db c (names c) (loc'.cat c)) ∧ (∀ c, c ∉ cs → loc'.cat c = loc.cat c)) ∨
    (∃ loc', loadLoop db names cs loc = (false, loc') ∧ (∃ c ∈ cs, ∀ v, ¬ Selects db c (names c) v)) := by
  induction cs generalizing loc with
  | nil => exact Or.inl ⟨loc, rfl, rfl, by simp, fun _ _ => rfl⟩
  | cons c cs ih =>
    have hstep : ∀ v, Selects db c (names c) v →
        ((∃ loc', loadLoop db names cs (setCat loc c v) = (true, loc') ∧ loc'.all = loc.all ∧ (∀ e ∈ c :: cs, Selects db e (names e) (loc'.cat e)) ∧
          (∀ e, e ∉ c :: cs → loc'.cat e = loc.cat e)) ∨
        (∃ loc', loadLoop db names cs (setCat loc c v) = (false, loc') ∧ (∃ e ∈ c :: cs, ∀ w, ¬ Selects db e (names e) w))) := by
      intro v hv
      rcases ih (List.nodup_cons.1 hnd).2 (setCat loc c v) with ⟨loc', h1, h2, h3, h4⟩ | ⟨loc', h1, e, he, h2⟩
      · left
        refine ⟨loc', h1, h2, ?_, ?_⟩
        · intro e he
          rcases List.mem_cons.1 he with rfl | he
          · rw [h4 e (List.nodup_cons.1 hnd).1, setCat_self]
            exact hv
          · exact h3 e he
        · intro e he
          rw [List.mem_cons, not_or] at he
          rw [h4 e he.2, setCat_ne loc v he.1]
      · exact Or.inr ⟨loc', h1, e, List.mem_cons_of_mem _ he, h2⟩
    rw [loadLoop]
    by_cases hC : isC (names c) = true
    · rw [if_pos hC]
      exact hstep _ (by unfold Selects; rw [if_pos (isC_iff.1 hC)])
    · rw [if_neg hC]
      have hC' : ¬ (names c = txt "C" ∨ names c = txt "POSIX") := fun e => hC (isC_iff.2 e)
      cases hf : find db c (names c) with
      | some v => exact hstep v (by unfold Selects; rw [if_neg hC']; exact hf)
      | none =>
        right
        refine ⟨loc, rfl, c, by simp, fun v => ?_⟩
        unfold Selects
        rw [if_neg hC', hf]
        exact fun e => by cases e

theorem cats_nodup : cats.Nodup := by decide

theorem nameFor_none (name : List Nat) (c : Nat) : nameFor none name c = name := rfl

/-- A name without ";" is not a composite name. -/
theorem parse_simple (s : List Nat) (h : 59 ∉ s) : parseComposite cats s = .ok none := by
  unfold cats
  rw [parseComposite]
  by_cases h1 : s.takeWhile (· ≠ 61) ≠ lcName 0
  · rw [if_pos h1]
  · rw [if_neg h1]
    by_cases h2 : 61 ∉ s
    · rw [if_pos h2, if_neg (by omega)]
    · rw [if_neg h2]
      dsimp only
      by_cases h3 : (s.drop ((s.takeWhile (· ≠ 61)).length + 1)).takeWhile (· ≠ 59) = []
      · rw [if_pos h3]
      · rw [if_neg h3, if_pos (fun e => h (List.mem_of_mem_drop e)), if_neg (by omega)]

/-- What setlocale(LC_ALL, name) and newlocale do with the names of the categories. -/
theorem loadLocale_spec (db : Db D) (cs : List Nat) (hnd : cs.Nodup) (name : List Nat) (base : Loc D) (comp : Option (List (Nat × List Nat)))
    (hp : parseComposite cats name = .ok comp) :
    (∃ loc', loadLocale db cs name base = .ok (true, loc') ∧ (∀ c ∈ cs, Selects db c (nameFor comp name c) (loc'.cat c)) ∧
      (cs = cats ∨ ∀ c, c ∉ cs → loc'.cat c = base.cat c)) ∨
    (∃ loc', loadLocale db cs name base = .ok (false, loc') ∧ ∃ c ∈ cs, ∀ v, ¬ Selects db c (nameFor comp name c) v) := by
  by_cases h : isC name = true ∧ cs = cats
  · have hL : loadLocale db cs name base = .ok (true, fresh db) := by
      unfold loadLocale
      rw [if_pos h]
    left
    refine ⟨fresh db, hL, ?_, Or.inl h.2⟩
    have hsimple : 59 ∉ name := by
      rcases isC_iff.1 h.1 with e | e <;> rw [e] <;> decide
    rw [parse_simple name hsimple] at hp
    injection hp with hp
    intro c _
    rw [← hp, nameFor_none]
    unfold Selects
    rw [if_pos (isC_iff.1 h.1)]
    rfl
  · have hL : loadLocale db cs name base =
        match loadLoop db (nameFor comp name) cs base with | (true, loc) => .ok (true, updateName loc) | (false, loc) => .ok (false, loc) := by
      unfold loadLocale
      rw [if_neg h, hp]
      rfl
    rw [hL]
    rcases loadLoop_spec db (nameFor comp name) cs hnd base with ⟨loc', h1, h2, h3, h4⟩ | ⟨loc', h1, h2⟩
    · left
      rw [h1]
      exact ⟨updateName loc', rfl, h3, Or.inr h4⟩
    · right
      rw [h1]
      exact ⟨loc', rfl, h2⟩

theorem setlocale_all_eq (db : Db D) (env : List Nat → Option (List Nat)) (loc : Loc D) (name : List Nat) (hn : name ≠ []) :
    setlocale db env loc 6 (some name) =
      (loadLocale db cats name loc).bind fun r => if r.1 then .ok (some (updateName r.2).all, updateName r.2) else .ok (none, r.2) := by
  cases name with
  | nil => exact absurd rfl hn
  | cons x name => rfl

theorem all_spec (db : Db D) (loc : Loc D) (name : List Nat) (comp : Option (List (Nat × List Nat))) (hp : parseComposite cats name = .ok comp) :
    (∃ loc', ((loadLocale db cats name loc).bind fun r => if r.1 then .ok (some (updateName r.2).all, updateName r.2) else .ok (none, r.2)) =
        .ok (some (updateName loc').all, updateName loc') ∧ ∀ c, Category c → Selects db c (nameFor comp name c) (loc'.cat c)) ∨
    (∃ loc', ((loadLocale db cats name loc).bind fun r => if r.1 then .ok (some (updateName r.2).all, updateName r.2) else .ok (none, r.2)) =
        .ok (none, loc') ∧ ∃ c, Category c ∧ ∀ v, ¬ Selects db c (nameFor comp name c) v) := by
  rcases loadLocale_spec db cats cats_nodup name loc comp hp with ⟨loc', h1, h2, _⟩ | ⟨loc', h1, c, hc, h2⟩
  · left
    rw [h1]
    exact ⟨loc', rfl, fun c hc => h2 c (mem_cats.2 hc)⟩
  · right
    rw [h1]
    exact ⟨loc', rfl, c, mem_cats.1 hc, h2⟩

/-- **C89**: setting all categories to one name: each is then what the name selects for it; NULL if it selects nothing for one of them. -/
theorem setlocale_all (db : Db D) (env : List Nat → Option (List Nat)) (loc : Loc D) (name : List Nat) (hn : name ≠ []) (hs : 59 ∉ name) :
    (∃ n loc', setlocale db env loc 6 (some name) = .ok (some n, loc') ∧ ∀ c, Category c → Selects db c name (loc'.cat c)) ∨
    (∃ loc', setlocale db env loc 6 (some name) = .ok (none, loc') ∧ ∃ c, Category c ∧ ∀ v, ¬ Selects db c name v) := by
  rw [setlocale_all_eq db env loc name hn]
  rcases all_spec db loc name none (parse_simple name hs) with ⟨loc', h1, h2⟩ | ⟨loc', h1, h2⟩
  · exact Or.inl ⟨_, _, h1, h2⟩
  · exact Or.inr ⟨_, h1, h2⟩

/-! ## Composite names -/

theorem lcName_no_eq (c : Nat) : 61 ∉ lcName c := by
  unfold lcName
  split <;> decide

theorem takeWhile_stop {p : Nat → Bool} (a b : List Nat) (x : Nat) (ha : ∀ c ∈ a, p c = true) (hx : p x = false) : (a ++ x :: b).takeWhile p = a := by
  rw [List.takeWhile_append_of_pos ha, List.takeWhile_cons_of_neg (by rw [hx]; decide), List.append_nil]

theorem takeWhile_all' {p : Nat → Bool} (a : List Nat) (ha : ∀ c ∈ a, p c = true) : a.takeWhile p = a := by
  have := List.takeWhile_append_of_pos (l₂ := []) ha
  simpa using this

theorem ne_of_notMem {a : List Nat} {x : Nat} (h : x ∉ a) : ∀ c ∈ a, decide (c ≠ x) = true := by
  intro c hc
  simp only [decide_eq_true_eq]
  rintro rfl
  exact h hc

theorem parse_composite (loc : Loc D) (l : List Nat) (hl : 12 ∉ l) (hc : ∀ c ∈ l ++ [12], (loc.cat c).1 ≠ [] ∧ 59 ∉ (loc.cat c).1) :
    parseComposite (l ++ [12]) (composite loc (l ++ [12])) = .ok (some ((l ++ [12]).map fun c => (c, (loc.cat c).1))) := by
  induction l with
  | nil =>
    obtain ⟨h1, h2⟩ := hc 12 (by simp)
    have e : composite loc ([] ++ [12]) = lcName 12 ++ 61 :: (loc.cat 12).1 := by simp [composite]
    have et : (lcName 12 ++ 61 :: (loc.cat 12).1).takeWhile (· ≠ 61) = lcName 12 := takeWhile_stop _ _ _ (ne_of_notMem (lcName_no_eq 12)) (by decide)
    have ed : (lcName 12 ++ 61 :: (loc.cat 12).1).drop ((lcName 12).length + 1) = (loc.cat 12).1 := by
      rw [← List.drop_drop, List.drop_left]
      rfl
    have ev : (loc.cat 12).1.takeWhile (· ≠ 59) = (loc.cat 12).1 := takeWhile_all' _ (ne_of_notMem h2)
    rw [e]
    show parseComposite (12 :: []) _ = _
    rw [parseComposite, et, if_neg (by simp), if_neg (by simp), ed]
    dsimp only
    rw [ev, if_neg h1, if_pos h2, if_pos rfl]
    rfl
  | cons c l ih =>
    obtain ⟨h1, h2⟩ := hc c (by simp)
    have hc12 : c ≠ 12 := by rintro rfl; exact hl (by simp)
    have e : composite loc (c :: l ++ [12]) = lcName c ++ 61 :: ((loc.cat c).1 ++ 59 :: composite loc (l ++ [12])) := by
      rw [List.cons_append, composite, if_neg hc12]
      simp
    have et : (lcName c ++ 61 :: ((loc.cat c).1 ++ 59 :: composite loc (l ++ [12]))).takeWhile (· ≠ 61) = lcName c :=
      takeWhile_stop _ _ _ (ne_of_notMem (lcName_no_eq c)) (by decide)
    have ed : (lcName c ++ 61 :: ((loc.cat c).1 ++ 59 :: composite loc (l ++ [12]))).drop ((lcName c).length + 1) =
        (loc.cat c).1 ++ 59 :: composite loc (l ++ [12]) := by
      rw [← List.drop_drop, List.drop_left]
      rfl
    have ev : ((loc.cat c).1 ++ 59 :: composite loc (l ++ [12])).takeWhile (· ≠ 59) = (loc.cat c).1 := takeWhile_stop _ _ _ (ne_of_notMem h2) (by decide)
    have ed2 : ((loc.cat c).1 ++ 59 :: composite loc (l ++ [12])).drop ((loc.cat c).1.length + 1) = composite loc (l ++ [12]) := by
      rw [← List.drop_drop, List.drop_left]
      rfl
    have hne : composite loc (l ++ [12]) = composite loc (l ++ [12]) := rfl
    rw [e, List.cons_append, parseComposite, et, if_neg (by simp), if_neg (by simp), ed]
    dsimp only
    rw [ev, if_neg h1, if_neg (by simp), ed2, ih (fun h => hl (by simp [h])) (fun e he => hc e (by simp at he ⊢; exact Or.inr he))]
    rfl

theorem lookup_map (f : Nat → List Nat) (cs : List Nat) (c : Nat) (h : c ∈ cs) : (cs.map fun c => (c, f c)).lookup c = some (f c) := by
  induction cs with
  | nil => cases h
  | cons e cs ih =>
    rw [List.map_cons, List.lookup_cons]
    by_cases hc : c = e
    · subst hc
      simp
    · have : (c == e) = false := by simpa using hc
      rw [this]
      exact ih (by rcases List.mem_cons.1 h with h | h; exact absurd h hc; exact h)

theorem parse_composite_cats (loc : Loc D) (hc : Clean loc) :
    parseComposite cats (composite loc cats) = .ok (some (cats.map fun c => (c, (loc.cat c).1))) :=
  parse_composite loc [0, 1, 2, 3, 4, 5, 7, 8, 9, 10, 11] (by decide) (fun c h => hc c (mem_cats.1 h))

theorem nameFor_composite (loc : Loc D) (name : List Nat) (c : Nat) (h : Category c) :
    nameFor (some (cats.map fun c => (c, (loc.cat c).1))) name c = (loc.cat c).1 := by
  unfold nameFor
  dsimp only
  rw [lookup_map (fun c => (loc.cat c).1) cats c (mem_cats.2 h)]
  rfl

theorem composite_congr (a b : Loc D) (cs : List Nat) (h : ∀ c ∈ cs, (a.cat c).1 = (b.cat c).1) : composite a cs = composite b cs := by
  induction cs with
  | nil => rfl
  | cons c cs ih => rw [composite, composite, h c (by simp), ih (fun e he => h e (by simp [he]))]

theorem updateName_congr (a b : Loc D) (h : Same a b) : (updateName a).all = (updateName b).all := by
  have hn : ∀ c ∈ cats, (a.cat c).1 = (b.cat c).1 := fun c hc => by rw [h c (mem_cats.1 hc)]
  have h0 : (a.cat 0).1 = (b.cat 0).1 := hn 0 (by decide)
  show (if cats.all (fun c => (a.cat c).1 == (a.cat 0).1) then (a.cat 0).1 else composite a cats) = (if cats.all (fun c => (b.cat c).1 == (b.cat 0).1) then (b.cat 0).1 else composite b cats)
  have e : cats.all (fun c => (a.cat c).1 == (a.cat 0).1) = cats.all (fun c => (b.cat c).1 == (b.cat 0).1) := by
    rw [Bool.eq_iff_iff, List.all_eq_true, List.all_eq_true]
    constructor
    · intro hx c hc
      rw [← hn c hc, ← h0]
      exact hx c hc
    · intro hx c hc
      rw [hn c hc, h0]
      exact hx c hc
  rw [e, h0, composite_congr a b cats hn]

/-- The name of the whole is in order, given the names of the parts. -/
theorem all_names (loc : Loc D) (hc : Clean loc) (h : loc.all = (updateName loc).all) :
    loc.all ≠ [] ∧ ∃ comp, parseComposite cats loc.all = .ok comp ∧ ∀ c, Category c → nameFor comp loc.all c = (loc.cat c).1 := by
  have h0 : Category 0 := by unfold Category; omega
  have hu : (updateName loc).all = if cats.all (fun c => (loc.cat c).1 == (loc.cat 0).1) then (loc.cat 0).1 else composite loc cats := rfl
  rw [hu] at h
  by_cases hall : cats.all (fun c => (loc.cat c).1 == (loc.cat 0).1) = true
  · rw [if_pos hall] at h
    refine ⟨by rw [h]; exact (hc 0 h0).1, none, ?_, ?_⟩
    · rw [h]
      exact parse_simple _ (hc 0 h0).2
    · intro c hcat
      rw [nameFor_none, h]
      have := List.all_eq_true.1 hall c (mem_cats.2 hcat)
      exact (by simpa using this : (loc.cat c).1 = (loc.cat 0).1).symm
  · rw [if_neg hall] at h
    refine ⟨?_, some (cats.map fun c => (c, (loc.cat c).1)), ?_, ?_⟩
    · rw [h]
      intro e
      have := congrArg List.length e
      unfold cats at this
      simp only [composite, List.length_append, List.length_nil] at this
      simp at this
    · rw [h]
      exact parse_composite_cats loc hc
    · intro c hcat
      exact nameFor_composite loc _ c hcat

/-- **C89**: the name that setlocale(LC_ALL, NULL) gave restores the locale, whatever the locale is by then. -/
theorem setlocale_restore (db : Db D) (env : List Nat → Option (List Nat)) (loc cur : Loc D) (hf : Faithful db loc) (hc : Clean loc)
    (hall : loc.all = (updateName loc).all) : ∃ loc', setlocale db env cur 6 (some loc.all) = .ok (some loc.all, loc') ∧ Same loc' loc := by
  obtain ⟨hne, comp, hp, hnames⟩ := all_names loc hc hall
  rw [setlocale_all_eq db env cur _ hne]
  rcases all_spec db cur loc.all comp hp with ⟨loc', h1, h2⟩ | ⟨loc', _, c, hcat, h2⟩
  · have hsame : Same loc' loc := by
      intro c hcat
      have := h2 c hcat
      rw [hnames c hcat] at this
      exact this.unique (hf c hcat)
    refine ⟨updateName loc', ?_, hsame⟩
    rw [h1, updateName_congr loc' loc hsame, ← hall]
  · exfalso
    have := h2 (loc.cat c)
    rw [hnames c hcat] at this
    exact this (hf c hcat)

/-! ## The environment -/

theorem envLoop_spec (db : Db D) (pick : Nat → Option (List Nat)) (cs : List Nat) (hnd : cs.Nodup) (loc : Loc D) :
    (∃ loc', envLoop db pick cs loc = (true, loc') ∧ (∀ c ∈ cs, ∀ n, pick c = some n → Selects db c n (loc'.cat c)) ∧
      (∀ c, (c ∉ cs ∨ pick c = none) → loc'.cat c = loc.cat c)) ∨
    (∃ loc', envLoop db pick cs loc = (false, loc') ∧ ∃ c ∈ cs, ∃ n, pick c = some n ∧ ∀ v, ¬ Selects db c n v) := by
  induction cs generalizing loc with
  | nil => exact Or.inl ⟨loc, rfl, by simp, fun _ _ => rfl⟩
  | cons c cs ih =>
    obtain ⟨hc1, hc2⟩ := List.nodup_cons.1 hnd
    rw [envLoop]
    cases hp : pick c with
    | none =>
      dsimp only
      rcases ih hc2 loc with ⟨loc', h1, h2, h3⟩ | ⟨loc', h1, e, he, h2⟩
      · left
        refine ⟨loc', h1, ?_, ?_⟩
        · intro e he n hn
          rcases List.mem_cons.1 he with rfl | he
          · rw [hp] at hn; cases hn
          · exact h2 e he n hn
        · intro e he
          refine h3 e ?_
          rcases he with he | he
          · exact Or.inl (fun h => he (List.mem_cons_of_mem _ h))
          · exact Or.inr he
      · exact Or.inr ⟨loc', h1, e, List.mem_cons_of_mem _ he, h2⟩
    | some n =>
      dsimp only
      rcases applyCat_spec db loc c n with ⟨v, hv, ha⟩ | ⟨hv, ha⟩
      · rw [ha]
        dsimp only
        rcases ih hc2 (setCat loc c v) with ⟨loc', h1, h2, h3⟩ | ⟨loc', h1, e, he, h2⟩
        · left
          refine ⟨loc', h1, ?_, ?_⟩
          · intro e he m hm
            rcases List.mem_cons.1 he with rfl | he
            · rw [hp] at hm
              injection hm with hm
              subst hm
              rw [h3 e (Or.inl hc1), setCat_self]
              exact hv
            · exact h2 e he m hm
          · intro e he
            have hne : e ≠ c := by
              rintro rfl
              rcases he with he | he
              · exact he (by simp)
              · rw [hp] at he; cases he
            rw [h3 e (he.imp (fun h h' => h (List.mem_cons_of_mem _ h')) id), setCat_ne loc v hne]
        · exact Or.inr ⟨loc', h1, e, List.mem_cons_of_mem _ he, h2⟩
      · rw [ha]
        exact Or.inr ⟨loc, rfl, c, by simp, n, hp, hv⟩

theorem nonEmpty_some {env : List Nat → Option (List Nat)} {s : String} {v : List Nat} (h : nonEmpty env (txt s) = some v) : EnvIs env s v := by
  unfold nonEmpty at h
  cases he : env (txt s) with
  | none => rw [he] at h; cases h
  | some w =>
    rw [he] at h
    dsimp only at h
    split at h
    · cases h
    · injection h with h
      subst h
      exact ⟨he, by assumption⟩

theorem nonEmpty_none {env : List Nat → Option (List Nat)} {s : String} (h : nonEmpty env (txt s) = none) : EnvUnset env s := by
  unfold nonEmpty at h
  cases he : env (txt s) with
  | none => exact Or.inl he
  | some w =>
    rw [he] at h
    dsimp only at h
    split at h
    · rename_i hw
      exact Or.inr (by rw [he, hw])
    · cases h

theorem nonEmpty_unset {env : List Nat → Option (List Nat)} {s : String} (h : EnvUnset env s) : nonEmpty env (txt s) = none := by
  unfold nonEmpty
  rcases h with h | h <;> rw [h]
  simp

theorem nonEmpty_is {env : List Nat → Option (List Nat)} {s : String} {v : List Nat} (h : EnvIs env s v) : nonEmpty env (txt s) = some v := by
  unfold nonEmpty
  rw [h.1]
  dsimp only
  rw [if_neg h.2]

theorem variable_name {c : Nat} (h : Category c) : lcName c = txt (variable_ c) := by
  obtain ⟨h1, h2⟩ := h
  have : c = 0 ∨ c = 1 ∨ c = 2 ∨ c = 3 ∨ c = 4 ∨ c = 5 ∨ c = 7 ∨ c = 8 ∨ c = 9 ∨ c = 10 ∨ c = 11 ∨ c = 12 := by omega
  rcases this with rfl | rfl | rfl | rfl | rfl | rfl | rfl | rfl | rfl | rfl | rfl | rfl <;> rfl

/-- Both passes over the categories. -/
theorem env_spec (db : Db D) (env : List Nat → Option (List Nat)) (loc : Loc D) (category : Nat) (h6 : category = 6 → EnvUnset env "LC_ALL")
    (hcat : category ≤ 12) :
    (∃ loc' n, setlocale db env loc category (some []) = .ok (some n, updateName loc') ∧ ∀ c, Category c → ∃ n, EnvName env c n ∧ Selects db c n (loc'.cat c)) ∨
    (∃ loc', setlocale db env loc category (some []) = .ok (none, loc') ∧ ∃ c n, Category c ∧ EnvName env c n ∧ ∀ v, ¬ Selects db c n v) := by
  have hif : (if category = 6 then nonEmpty env (txt "LC_ALL") else none) = none := by
    split
    · rename_i h
      exact nonEmpty_unset (h6 h)
    · rfl
  have hname : ∀ l : Loc D, ∃ n, nameOf l category = .ok n := by
    intro l
    unfold nameOf
    split <;> exact ⟨_, rfl⟩
  have hown : ∀ c, Category c → ∀ n, nonEmpty env (lcName c) = some n → EnvName env c n := by
    intro c hc n hn
    rw [variable_name hc] at hn
    exact .own (nonEmpty_some hn)
  have hlang : ∀ c, Category c → nonEmpty env (lcName c) = none → EnvName env c (match nonEmpty env (txt "LANG") with | some v => v | none => txt "C") := by
    intro c hc hn
    rw [variable_name hc] at hn
    cases hl : nonEmpty env (txt "LANG") with
    | none => exact .none_ (nonEmpty_none hn) (nonEmpty_none hl)
    | some v => exact .lang (nonEmpty_none hn) (nonEmpty_some hl)
  unfold setlocale
  dsimp only
  rw [hif]
  dsimp only
  rcases envLoop_spec db (fun c => nonEmpty env (lcName c)) cats cats_nodup loc with ⟨l1, h1, h2, _⟩ | ⟨l1, h1, c, hc, n, hn, h2⟩
  · rw [h1]
    dsimp only
    generalize hL : (match nonEmpty env (txt "LANG") with | some v => v | none => txt "C") = lang at hlang
    rcases envLoop_spec db (fun c => if (nonEmpty env (lcName c)).isSome then none else some lang) cats cats_nodup l1 with ⟨l2, h4, h5, h6'⟩ | ⟨l2, h4, c, hc, n, hn, h5⟩
    · left
      rw [h4]
      dsimp only
      obtain ⟨n, hn⟩ := hname (updateName l2)
      rw [hn]
      refine ⟨l2, n, rfl, ?_⟩
      intro c hc
      cases ho : nonEmpty env (lcName c) with
      | some v =>
        refine ⟨v, hown c hc v ho, ?_⟩
        rw [h6' c (Or.inr (by rw [ho]; rfl))]
        exact h2 c (mem_cats.2 hc) v ho
      | none =>
        refine ⟨lang, hlang c hc ho, ?_⟩
        exact h5 c (mem_cats.2 hc) lang (by rw [ho]; rfl)
    · right
      rw [h4]
      refine ⟨l2, rfl, c, n, mem_cats.1 hc, ?_, h5⟩
      cases ho : nonEmpty env (lcName c) with
      | some v => rw [ho] at hn; cases hn
      | none =>
        rw [ho] at hn
        have : lang = n := by injection hn
        subst this
        exact hlang c (mem_cats.1 hc) ho
  · right
    rw [h1]
    exact ⟨l1, rfl, c, n, mem_cats.1 hc, hown c (mem_cats.1 hc) n hn, h2⟩

/-- **C89**: setlocale(LC_ALL, "") without LC_ALL in the environment: each category is selected by its own variable, else by LANG, else it is C; NULL if one
of these names selects nothing. -/
theorem setlocale_env (db : Db D) (env : List Nat → Option (List Nat)) (loc : Loc D) (h : EnvUnset env "LC_ALL") :
    (∃ n loc', setlocale db env loc 6 (some []) = .ok (some n, loc') ∧ ∀ c, Category c → ∃ n, EnvName env c n ∧ Selects db c n (loc'.cat c)) ∨
    (∃ loc', setlocale db env loc 6 (some []) = .ok (none, loc') ∧ ∃ c n, Category c ∧ EnvName env c n ∧ ∀ v, ¬ Selects db c n v) := by
  rcases env_spec db env loc 6 (fun _ => h) (by omega) with ⟨l, n, h1, h2⟩ | h1
  · exact Or.inl ⟨n, updateName l, h1, h2⟩
  · exact Or.inr h1

/-- **C89**: with LC_ALL in the environment, setlocale(LC_ALL, "") does what setlocale(LC_ALL, value) does. -/
theorem setlocale_env_all (db : Db D) (env : List Nat → Option (List Nat)) (loc : Loc D) (v : List Nat) (h : EnvIs env "LC_ALL" v) :
    setlocale db env loc 6 (some []) = setlocale db env loc 6 (some v) := by
  rw [setlocale_all_eq db env loc v h.2]
  unfold setlocale
  dsimp only
  rw [if_pos rfl, nonEmpty_is h]

end Mlibc.Locale
