import Verif.Base
/-
Model of options/ansi/generic/environment.cpp and C22.
-/
set_option linter.unusedSimpArgs false
namespace Mlibc.Env
open Mlibc

/-- A C string: its bytes before the terminating NUL. -/
abbrev Str := List UInt8

/-- `=` -/
abbrev eq : UInt8 := 61

/-! ### Model

Simplifications: an entry of the environment is the content of the string; strings handed to putenv are not modified
afterwards by the caller. Allocation succeeds (the code aborts otherwise). -/

/-- frg::string_view::find_first -/
def findFirst (c : UInt8) : Str → Option Nat
  | [] => none
  | x :: xs => if x = c then some 0 else (findFirst c xs).map (· + 1)

/-- `environ` and the vector of environment.cpp:37-47. A pointer array is a list of entries, `none` being the null
pointer. `environ` is `none` if it is `vector.data()` and `some a` if it points to another array `a`. -/
structure State where
  environ : Option (List (Option Str))
  vector : List (Option Str)
  deriving DecidableEq, Repr

/-- The array `environ` points to. -/
def State.array (s : State) : List (Option Str) :=
  match s.environ with
  | some a => a
  | none => s.vector

/-- Initially `environ` is the array passed to the process (or `empty_environment`, lines 13-16). -/
def init (entries : List Str) : State := ⟨some (entries.map some ++ [none]), []⟩

/-- environment.cpp:20-35 `find_environ_index` -/
def findIndex (name : Str) : List (Option Str) → Nat → Res (Option Nat)
  | [], _ => .ub
  | none :: _, _ => .ok none
  | some view :: rest, i =>
    match findFirst eq view with
    | none => findIndex name rest (i + 1)
    | some s => if view.take s = name then .ok (some i) else findIndex name rest (i + 1)

/-- environment.cpp:55-57, the copy loop of `update_vector`. -/
def copyLoop : List (Option Str) → Res (List (Option Str))
  | [] => .ub
  | none :: _ => .ok []
  | some e :: rest => do return some e :: (← copyLoop rest)

/-- environment.cpp:49-62 `update_vector` -/
def updateVector (s : State) : Res State :=
  match s.environ with
  | none => .ok s
  | some a => do return ⟨none, (← copyLoop a) ++ [none]⟩

/-- environment.cpp:64-82 `assign_variable` -/
def assignVariable (s : State) (name string : Str) (overwrite : Bool) : Res State := do
  ensure s.environ.isNone
  match ← findIndex name s.array 0 with
  | some k =>
    if overwrite then
      if k < s.vector.length then return ⟨none, s.vector.set k (some string)⟩ else .ub
    else return s
  | none =>
    ensure (s.vector.getLast? == some none)
    return ⟨none, s.vector.set (s.vector.length - 1) (some string) ++ [none]⟩

/-- environment.cpp:84-100 `unassign_variable` -/
def unassignVariable (s : State) (name : Str) : Res State := do
  ensure s.environ.isNone
  match ← findIndex name s.array 0 with
  | none => return s
  | some k =>
    ensure (s.vector.length ≥ 2 && s.vector.getLast? == some none)
    let n := s.vector.length
    -- std::swap(vector[k], vector[n - 2])
    match s.vector[k]?, s.vector[n - 2]? with
    | some a, some b =>
      let v := (s.vector.set k b).set (n - 2) a
      -- pop(); back() = nullptr
      let v := v.dropLast
      return ⟨none, v.set (v.length - 1) none⟩
    | _, _ => .ub

/-- environment.cpp:104-113 `getenv` -/
def getenv (s : State) (name : Str) : Res (Option Str) := do
  match ← findIndex name s.array 0 with
  | none => return none
  | some k =>
    match s.array[k]? with
    | some (some view) =>
      match findFirst eq view with
      | some i => return some (view.drop (i + 1))
      | none => .panic
    | _ => .ub

/-- environment.cpp:117-130 `putenv` -/
def putenv (s : State) (string : Str) : Res (Int × State) := do
  match findFirst eq string with
  | none => return (0, ← unassignVariable (← updateVector s) string)
  | some i => return (0, ← assignVariable (← updateVector s) (string.take i) string true)

/-- environment.cpp:140-158 `setenv`; -1 comes with EINVAL. -/
def setenv (s : State) (name value : Str) (overwrite : Bool) : Res (Int × State) := do
  match findFirst eq name with
  | some _ => return (-1, s)
  | none => return (0, ← assignVariable (← updateVector s) name (name ++ eq :: value) overwrite)

/-- environment.cpp:160-164 `unsetenv` -/
def unsetenv (s : State) (name : Str) : Res (Int × State) := do
  return (0, ← unassignVariable (← updateVector s) name)

/-- environment.cpp:166-171 `clearenv`. `auto vector = get_vector()` makes a copy of the vector, which is cleared. -/
def clearenv (s : State) : Res (Int × State) := do
  return (0, ← updateVector s)

/-- A call, or an assignment to `environ` by the program. -/
inductive Op where
  | setenv (name value : Str) (overwrite : Bool)
  | putenv (string : Str)
  | unsetenv (name : Str)
  | clearenv
  | setEnviron (entries : List Str)

def step (s : State) : Op → Res (Int × State)
  | .setenv n v o => setenv s n v o
  | .putenv x => putenv s x
  | .unsetenv n => unsetenv s n
  | .clearenv => clearenv s
  | .setEnviron es => .ok (0, { s with environ := some (es.map some ++ [none]) })

/-- A history of calls: the return values and the final state. -/
def run (s : State) : List Op → Res (List Int × State)
  | [] => .ok ([], s)
  | op :: ops => do
    let (r, s) ← step s op
    let (rs, s) ← run s ops
    return (r :: rs, s)

/-! ### Specification -/

/-- The value of a name in an array of strings: that of the first entry `name=value`. -/
def lookup (entries : List Str) (name : Str) : Option Str :=
  if eq ∈ name then none
  else (entries.find? fun e => (name ++ [eq]).isPrefixOf e).map fun e => e.drop (name.length + 1)

/-- No name is defined twice. -/
def NoDuplicates (entries : List Str) : Prop :=
  ∀ (i j : Nat) (n v w : Str), eq ∉ n → entries[i]? = some (n ++ eq :: v) → entries[j]? = some (n ++ eq :: w) → i = j

/-- The environment as a map. -/
abbrev Map := Str → Option Str

def Map.update (m : Map) (n : Str) (v : Option Str) : Map := fun x => if x = n then v else m x

/-- What POSIX demands: -1 stands for EINVAL. For `putenv` without `=` the glibc extension applies (remove). -/
def specStep (m : Map) : Op → Int × Map
  | .setenv n v o =>
    if n = [] ∨ eq ∈ n then (-1, m)
    else if o ∨ m n = none then (0, m.update n (some v)) else (0, m)
  | .putenv x =>
    if eq ∈ x then (0, m.update (x.takeWhile (· ≠ eq)) (some (x.drop ((x.takeWhile (· ≠ eq)).length + 1))))
    else (0, m.update x none)
  | .unsetenv n => if n = [] ∨ eq ∈ n then (-1, m) else (0, m.update n none)
  | .clearenv => (0, fun _ => none)
  | .setEnviron es => (0, lookup es)

def specRun (m : Map) : List Op → List Int × Map
  | [] => ([], m)
  | op :: ops =>
    let (r, m) := specStep m op
    let (rs, m) := specRun m ops
    (r :: rs, m)

/-! ### Proof -/

theorem findFirst_none {c : UInt8} {x : Str} : findFirst c x = none ↔ c ∉ x := by
  induction x with
  | nil => simp [findFirst]
  | cons a x ih =>
    rw [findFirst]
    by_cases h : a = c
    · simp [h]
    · have h' : ¬ c = a := fun hh => h hh.symm
      simp [h, h', ih]

theorem findFirst_some {c : UInt8} {x : Str} {i : Nat} :
    findFirst c x = some i ↔ ∃ n v, x = n ++ c :: v ∧ c ∉ n ∧ n.length = i := by
  induction x generalizing i with
  | nil => simp [findFirst]
  | cons a x ih =>
    rw [findFirst]
    by_cases h : a = c
    · subst h
      simp only [if_true, Option.some.injEq]
      constructor
      · rintro rfl; exact ⟨[], x, by simp⟩
      · rintro ⟨n, v, h1, h2, h3⟩
        cases n with
        | nil => simpa using h3
        | cons b n => simp at h1 h2; exact absurd h1.1 h2.1
    · have h' : ¬ c = a := fun hh => h hh.symm
      simp only [h, if_false, Option.map_eq_some_iff, ih]
      constructor
      · rintro ⟨j, ⟨n, v, h1, h2, h3⟩, rfl⟩
        exact ⟨a :: n, v, by simp [h1], by simp [h', h2], by simp [h3]⟩
      · rintro ⟨n, v, h1, h2, h3⟩
        cases n with
        | nil => simp at h1; exact absurd h1.1 h
        | cons b n =>
          simp at h1 h2 h3
          exact ⟨n.length, ⟨n, v, h1.2, h2.2, rfl⟩, h3⟩

/-- The entry defines `name` as `v`. -/
def Defines (e name v : Str) : Prop := e = name ++ eq :: v ∧ eq ∉ name

theorem takeWhile_defines {e n v : Str} (h : Defines e n v) : e.takeWhile (· ≠ eq) = n := by
  obtain ⟨rfl, h⟩ := h
  rw [List.takeWhile_append_of_pos]
  · simp
  · intro a ha; simp; rintro rfl; exact h ha

theorem Defines.unique {e n v n' v' : Str} (h : Defines e n v) (h' : Defines e n' v') : n = n' ∧ v = v' := by
  have h1 := takeWhile_defines h
  rw [takeWhile_defines h'] at h1
  subst h1
  have := h.1.symm.trans h'.1
  simp at this
  exact ⟨rfl, this⟩

theorem findIndex_cases (name : Str) (es : List Str) (k : Nat) :
    (findIndex name (es.map some ++ [none]) k = .ok none ∧ ∀ e ∈ es, ∀ v, ¬ Defines e name v) ∨
    (∃ i e v, findIndex name (es.map some ++ [none]) k = .ok (some (k + i)) ∧ es[i]? = some e ∧ Defines e name v ∧
      ∀ j e' v', j < i → es[j]? = some e' → ¬ Defines e' name v') := by
  induction es generalizing k with
  | nil => exact Or.inl ⟨rfl, by simp⟩
  | cons e es ih =>
    have next : (∀ v, ¬ Defines e name v) → findIndex name ((e :: es).map some ++ [none]) k
        = findIndex name (es.map some ++ [none]) (k + 1) := by
      intro hno
      simp only [List.map_cons, List.cons_append, findIndex]
      cases hf : findFirst eq e with
      | none => rfl
      | some s =>
        obtain ⟨n, v, h1, h2, h3⟩ := findFirst_some.1 hf
        have : e.take s ≠ name := by
          rintro rfl
          refine hno v ⟨?_, ?_⟩ <;> simp [h1, ← h3, h2]
        simp [this]
    by_cases hd : ∃ v, Defines e name v
    · obtain ⟨v, hv⟩ := hd
      refine Or.inr ⟨0, e, v, ?_, by simp, hv, by intro j _ _ hj; omega⟩
      have hf : findFirst eq e = some name.length := findFirst_some.2 ⟨name, v, hv.1, hv.2, rfl⟩
      have ht : e.take name.length = name := by rw [hv.1]; simp
      simp [findIndex, hf, ht]
    · have hno : ∀ v, ¬ Defines e name v := fun v hv => hd ⟨v, hv⟩
      rw [next hno]
      rcases ih (k + 1) with ⟨h1, h2⟩ | ⟨i, e', v, h1, h2, h3, h4⟩
      · refine Or.inl ⟨h1, ?_⟩
        intro x hx v
        rcases List.mem_cons.1 hx with rfl | hx
        · exact hno v
        · exact h2 x hx v
      · refine Or.inr ⟨i + 1, e', v, by rw [h1]; congr 2; omega, by simpa using h2, h3, ?_⟩
        intro j e'' v' hj hj2
        cases j with
        | zero => simp at hj2; subst hj2; exact hno v'
        | succ j => exact h4 j e'' v' (by omega) (by simpa using hj2)

theorem prefix_defines (name e : Str) (hn : eq ∉ name) :
    (name ++ [eq]).isPrefixOf e = true ↔ ∃ v, Defines e name v := by
  rw [List.isPrefixOf_iff_prefix]
  constructor
  · rintro ⟨v, rfl⟩; exact ⟨v, by simp [Defines, hn]⟩
  · rintro ⟨v, rfl, _⟩; exact ⟨v, by simp⟩

/-- The array `environ` points to has these entries. -/
def Has (s : State) (es : List Str) : Prop := s.array = es.map some ++ [none]

/-- **C22 (reading).** getenv returns the value of the first entry `name=value` of `environ` (also of duplicate ones),
NULL if there is none. -/
theorem getenv_first (s : State) (es : List Str) (h : Has s es) (name : Str) :
    getenv s name = .ok (lookup es name) := by
  unfold getenv
  rw [h]
  rcases findIndex_cases name es 0 with ⟨h1, h2⟩ | ⟨i, e, v, h1, h2, h3, h4⟩
  · rw [h1]
    have : lookup es name = none := by
      unfold lookup
      split
      · rfl
      · rename_i hn
        rw [Option.map_eq_none_iff, List.find?_eq_none]
        intro e he hp
        obtain ⟨v, hv⟩ := (prefix_defines name e hn).1 hp
        exact h2 e he v hv
    simp [this]
  · rw [h1]
    have hil : i < es.length := (List.getElem?_eq_some_iff.1 h2).1
    have hget : (es.map some ++ [none])[i]? = some (some e) := by
      rw [List.getElem?_append_left (by simpa using hil)]; simp [h2]
    have hf : findFirst eq e = some name.length := findFirst_some.2 ⟨name, v, h3.1, h3.2, rfl⟩
    have hl : lookup es name = some v := by
      unfold lookup
      rw [if_neg h3.2]
      have hfind : es.find? (fun e => (name ++ [eq]).isPrefixOf e) = some e := by
        rw [List.find?_eq_some_iff_getElem]
        refine ⟨(prefix_defines name e h3.2).2 ⟨v, h3⟩, i, hil, ?_, ?_⟩
        · have := List.getElem?_eq_getElem hil
          rw [h2] at this; exact (Option.some.inj this).symm
        · intro j hj
          simp only [Bool.not_eq_true', Bool.eq_false_iff]
          intro hp
          obtain ⟨v', hv'⟩ := (prefix_defines name _ h3.2).1 hp
          exact h4 j _ v' hj (List.getElem?_eq_getElem (by omega)) hv'
      simp [hfind, h3.1]
    have hdr : e.drop (name.length + 1) = v := by rw [h3.1]; simp
    simp [hget, hf, hl, hdr]

/-- Without duplicates the map is determined by membership. -/
theorem lookup_iff {es : List Str} (hd : NoDuplicates es) (n v : Str) :
    lookup es n = some v ↔ ∃ i : Nat, ∃ e, es[i]? = some e ∧ Defines e n v := by
  have hg := getenv_first ⟨some (es.map some ++ [none]), []⟩ es rfl n
  by_cases hn : eq ∈ n
  · constructor
    · intro h; simp [lookup, hn] at h
    · rintro ⟨_, _, _, h⟩; exact absurd hn h.2
  · simp only [lookup, hn, if_false, Option.map_eq_some_iff]
    constructor
    · rintro ⟨e, h1, rfl⟩
      have hp := List.find?_some h1
      obtain ⟨v, hv⟩ := (prefix_defines n e hn).1 hp
      obtain ⟨i, hi⟩ := List.getElem?_of_mem (List.mem_of_find?_eq_some h1)
      refine ⟨i, e, hi, ?_⟩
      rw [hv.1] at *
      simpa using hv
    · rintro ⟨i, e, hi, hv⟩
      cases hf : es.find? (fun e => (n ++ [eq]).isPrefixOf e) with
      | none =>
        rw [List.find?_eq_none] at hf
        exact absurd ((prefix_defines n e hn).2 ⟨v, hv⟩) (hf e (List.mem_of_getElem? hi))
      | some e' =>
        obtain ⟨v', hv'⟩ := (prefix_defines n e' hn).1 (List.find?_some (p := fun e => (n ++ [eq]).isPrefixOf e) hf)
        obtain ⟨j, hj⟩ := List.getElem?_of_mem (List.mem_of_find?_eq_some hf)
        have := hd i j n v v' hn (by rw [hi, hv.1]) (by rw [hj, hv'.1])
        subst this
        rw [hi] at hj
        cases hj
        exact ⟨e, rfl, by simp [hv.1]⟩

theorem copyLoop_eq (es : List Str) : copyLoop (es.map some ++ [none]) = .ok (es.map some) := by
  induction es with
  | nil => rfl
  | cons e es ih => simp [copyLoop, ih]

theorem updateVector_eq (s : State) (es : List Str) (h : Has s es) :
    updateVector s = .ok ⟨none, es.map some ++ [none]⟩ := by
  unfold updateVector
  unfold Has State.array at h
  cases he : s.environ with
  | none =>
    rw [he] at h
    cases s; simp at he h; simp [he, h]
  | some a => rw [he] at h; simp at h; simp [h, copyLoop_eq]

theorem ext_lookup {es es' : List Str} (hd : NoDuplicates es) (hd' : NoDuplicates es') (f : Map)
    (h : ∀ n v, (∃ i : Nat, ∃ e, es'[i]? = some e ∧ Defines e n v) ↔ f n = some v) : ∀ n, f n = lookup es' n := by
  intro n
  cases hl : lookup es' n with
  | some v => exact (h n v).1 ((lookup_iff hd' n v).1 hl)
  | none =>
    cases hf : f n with
    | none => rfl
    | some v => rw [(lookup_iff hd' n v).2 ((h n v).2 hf)] at hl; cases hl

theorem NoDuplicates.defines {es : List Str} (hd : NoDuplicates es) {i j : Nat} {e e' n v w : Str}
    (hi : es[i]? = some e) (hj : es[j]? = some e') (h : Defines e n v) (h' : Defines e' n w) : i = j :=
  hd i j n v w h.2 (by rw [hi, h.1]) (by rw [hj, h'.1])

/-- Storing `name=value`. -/
theorem assign_rep (s : State) (es : List Str) (h : Has s es) (hd : NoDuplicates es) (name value : Str)
    (hn : eq ∉ name) (o : Bool) :
    ∃ s', (updateVector s >>= fun s => assignVariable s name (name ++ eq :: value) o) = .ok s' ∧
      ∃ es', Has s' es' ∧ NoDuplicates es' ∧ ∀ n, lookup es' n =
        (if o ∨ lookup es name = none then Map.update (lookup es) name (some value) else lookup es) n := by
  have hdef : Defines (name ++ eq :: value) name value := ⟨rfl, hn⟩
  rw [updateVector_eq s es h]
  simp only [Res.ok_bind, assignVariable, Option.isNone_none, ensure_true, State.array]
  rcases findIndex_cases name es 0 with ⟨h1, h2⟩ | ⟨i, e, v, h1, h2, h3, h4⟩
  · rw [h1]
    have hl : lookup es name = none := by
      cases hl : lookup es name with
      | none => rfl
      | some v =>
        obtain ⟨i, e, hi, hv⟩ := (lookup_iff hd name v).1 hl
        exact absurd hv (h2 e (List.mem_of_getElem? hi) v)
    have hd' : NoDuplicates (es ++ [name ++ eq :: value]) := by
      intro i j n v w hnn hi hj
      rw [List.getElem?_append] at hi hj
      split at hi <;> split at hj
      · exact hd i j n v w hnn hi hj
      · rename_i hjl
        have hj0 : j - es.length = 0 := by
          cases hx : j - es.length with
          | zero => rfl
          | succ x => simp [hx] at hj
        rw [hj0] at hj
        simp only [List.getElem?_cons_zero, Option.some.injEq] at hj
        obtain ⟨rfl, rfl⟩ := Defines.unique hdef ⟨hj, hnn⟩
        exact absurd ⟨rfl, hn⟩ (h2 _ (List.mem_of_getElem? hi) v)
      · have hi0 : i - es.length = 0 := by
          cases hx : i - es.length with
          | zero => rfl
          | succ x => simp [hx] at hi
        rw [hi0] at hi
        simp only [List.getElem?_cons_zero, Option.some.injEq] at hi
        obtain ⟨rfl, rfl⟩ := Defines.unique hdef ⟨hi, hnn⟩
        exact absurd ⟨rfl, hn⟩ (h2 _ (List.mem_of_getElem? hj) w)
      · have hi0 : i - es.length = 0 := by
          cases hx : i - es.length with
          | zero => rfl
          | succ x => simp [hx] at hi
        have hj0 : j - es.length = 0 := by
          cases hx : j - es.length with
          | zero => rfl
          | succ x => simp [hx] at hj
        omega
    refine ⟨⟨none, (es ++ [name ++ eq :: value]).map some ++ [none]⟩, by simp, es ++ [name ++ eq :: value], by simp [Has, State.array], hd', ?_⟩
    simp only [hl, or_true, if_true]
    intro n
    symm
    refine ext_lookup hd hd' (Map.update (lookup es) name (some value)) ?_ n
    intro n v
    simp only [Map.update]
    constructor
    · rintro ⟨i, e, hi, hv⟩
      rw [List.getElem?_append] at hi
      split at hi
      · have hne : n ≠ name := by
          rintro rfl; exact h2 e (List.mem_of_getElem? hi) v hv
        rw [if_neg hne]
        exact (lookup_iff hd n v).2 ⟨i, e, hi, hv⟩
      · have hi0 : i - es.length = 0 := by
          cases hx : i - es.length with
          | zero => rfl
          | succ x => simp [hx] at hi
        rw [hi0] at hi
        simp only [List.getElem?_cons_zero, Option.some.injEq] at hi
        subst hi
        obtain ⟨rfl, rfl⟩ := Defines.unique hdef hv
        simp
    · intro hv
      split at hv
      · cases hv; subst n
        exact ⟨es.length, _, by simp, hdef⟩
      · obtain ⟨i, e, hi, hv⟩ := (lookup_iff hd n v).1 hv
        exact ⟨i, e, by rw [List.getElem?_append_left (List.getElem?_eq_some_iff.1 hi).1]; exact hi, hv⟩
  · rw [h1]
    have hil : i < es.length := (List.getElem?_eq_some_iff.1 h2).1
    have hl : lookup es name = some v := (lookup_iff hd name v).2 ⟨i, e, h2, h3⟩
    cases o with
    | false => exact ⟨⟨none, es.map some ++ [none]⟩, by simp, es, by simp [Has, State.array], hd, by simp [hl]⟩
    | true =>
      have hset : ∀ (j : Nat) x, (es.set i (name ++ eq :: value))[j]? = some x ↔
          (j = i ∧ x = name ++ eq :: value) ∨ (j ≠ i ∧ es[j]? = some x) := by
        intro j x
        rw [List.getElem?_set]
        by_cases hij : i = j
        · subst hij; simp [hil, eq_comm]
        · have : ¬ j = i := fun hh => hij hh.symm
          simp [hij, this]
      have hd' : NoDuplicates (es.set i (name ++ eq :: value)) := by
        intro a b n x y hnn ha hb
        rw [hset] at ha hb
        rcases ha with ⟨ha, ha'⟩ | ⟨ha, ha'⟩ <;> rcases hb with ⟨hb, hb'⟩ | ⟨hb, hb'⟩
        · omega
        · obtain ⟨rfl, rfl⟩ := Defines.unique hdef ⟨ha'.symm, hnn⟩
          exact absurd (hd.defines hb' h2 ⟨rfl, hnn⟩ h3) hb
        · obtain ⟨rfl, rfl⟩ := Defines.unique hdef ⟨hb'.symm, hnn⟩
          exact absurd (hd.defines ha' h2 ⟨rfl, hnn⟩ h3) ha
        · exact hd a b n x y hnn ha' hb'
      refine ⟨_, by simp; rw [if_pos (by omega)], es.set i (name ++ eq :: value), ?_, hd', ?_⟩
      · simp only [Has, State.array]
        rw [List.set_append_left _ _ (by simpa using hil), List.map_set]
      · simp only [true_or, if_true]
        intro n
        symm
        refine ext_lookup hd hd' (Map.update (lookup es) name (some value)) ?_ n
        intro n w
        simp only [Map.update]
        constructor
        · rintro ⟨j, x, hj, hv⟩
          rw [hset] at hj
          rcases hj with ⟨rfl, rfl⟩ | ⟨hne, hj⟩
          · obtain ⟨rfl, rfl⟩ := Defines.unique hdef hv
            simp
          · have hnn : n ≠ name := by
              rintro rfl; exact hne (hd.defines hj h2 hv h3)
            rw [if_neg hnn]
            exact (lookup_iff hd n w).2 ⟨j, x, hj, hv⟩
        · intro hv
          split at hv
          · cases hv; subst n
            exact ⟨i, _, by rw [hset]; exact Or.inl ⟨rfl, rfl⟩, hdef⟩
          · rename_i hnn
            obtain ⟨j, x, hj, hv⟩ := (lookup_iff hd n w).1 hv
            refine ⟨j, x, ?_, hv⟩
            rw [hset]
            refine Or.inr ⟨?_, hj⟩
            rintro rfl
            rw [h2] at hj; cases hj
            exact hnn (Defines.unique hv h3).1

/-- Removing entry `i` by moving the last entry to its place. -/
def swapRemove (es : List Str) (i : Nat) : List Str :=
  match es.getLast? with
  | some l => (es.set i l).dropLast
  | none => es

theorem swapRemove_get (es : List Str) (i : Nat) (hi : i < es.length) (j : Nat) (x : Str) :
    (swapRemove es i)[j]? = some x ↔
      j < es.length - 1 ∧ ((j = i ∧ es[es.length - 1]? = some x) ∨ (j ≠ i ∧ es[j]? = some x)) := by
  have hne : es ≠ [] := by rintro rfl; simp at hi
  unfold swapRemove
  rw [List.getLast?_eq_some_getLast hne]
  simp only [List.getElem?_dropLast, List.length_set]
  by_cases hj : j < es.length - 1
  · simp only [hj, if_true, true_and, List.getElem?_set]
    by_cases hij : i = j
    · subst hij
      simp [hi, List.getLast_eq_getElem, List.getElem?_eq_getElem (show es.length - 1 < es.length by omega)]
    · have : ¬ j = i := fun hh => hij hh.symm
      simp [hij, this]
  · simp [hj]

theorem unassign_rep (s : State) (es : List Str) (h : Has s es) (hd : NoDuplicates es) (name : Str) :
    ∃ s', (updateVector s >>= fun s => unassignVariable s name) = .ok s' ∧
      ∃ es', Has s' es' ∧ NoDuplicates es' ∧ ∀ n, lookup es' n = Map.update (lookup es) name none n := by
  rw [updateVector_eq s es h]
  simp only [Res.ok_bind, unassignVariable, Option.isNone_none, ensure_true, State.array]
  rcases findIndex_cases name es 0 with ⟨h1, h2⟩ | ⟨i, e, v, h1, h2, h3, h4⟩
  · rw [h1]
    refine ⟨⟨none, es.map some ++ [none]⟩, by simp, es, by simp [Has, State.array], hd, ?_⟩
    intro n
    unfold Map.update
    split
    · subst n
      cases hl : lookup es name with
      | none => rfl
      | some v =>
        obtain ⟨i, e, hi, hv⟩ := (lookup_iff hd name v).1 hl
        exact absurd hv (h2 e (List.mem_of_getElem? hi) v)
    · rfl
  · rw [h1]
    have hil : i < es.length := (List.getElem?_eq_some_iff.1 h2).1
    have hget := swapRemove_get es i hil
    -- where an entry of the new list comes from
    have src : ∀ (j : Nat) x, (swapRemove es i)[j]? = some x →
        ∃ k, k ≠ i ∧ es[k]? = some x ∧ k = (if j = i then es.length - 1 else j) := by
      intro j x hj
      obtain ⟨h1, ⟨rfl, h9⟩ | ⟨h2, h3⟩⟩ := (hget j x).1 hj
      · exact ⟨es.length - 1, by omega, h9, by simp⟩
      · exact ⟨j, h2, h3, by simp [h2]⟩
    have dst : ∀ (k : Nat) x, k ≠ i → es[k]? = some x → ∃ j : Nat, (swapRemove es i)[j]? = some x := by
      intro k x hk hx
      have hkl : k < es.length := (List.getElem?_eq_some_iff.1 hx).1
      by_cases hlast : k = es.length - 1
      · exact ⟨i, (hget i x).2 ⟨by omega, Or.inl ⟨rfl, by rw [← hlast]; exact hx⟩⟩⟩
      · exact ⟨k, (hget k x).2 ⟨by omega, Or.inr ⟨hk, hx⟩⟩⟩
    have hd' : NoDuplicates (swapRemove es i) := by
      intro a b n x y hnn ha hb
      have la := ((hget a _).1 ha).1
      have lb := ((hget b _).1 hb).1
      obtain ⟨ka, _, ha2, ha3⟩ := src a _ ha
      obtain ⟨kb, _, hb2, hb3⟩ := src b _ hb
      have := hd ka kb n x y hnn ha2 hb2
      subst this
      split at ha3 <;> split at hb3 <;> omega
    have hne : es ≠ [] := by rintro rfl; simp at hil
    refine ⟨⟨none, (swapRemove es i).map some ++ [none]⟩, ?_, swapRemove es i, by simp [Has, State.array], hd', ?_⟩
    · have g1 : (es.map some ++ [none])[i]? = some (some e) := by
        rw [List.getElem?_append_left (by simpa using hil)]; simp [h2]
      have g2 : (es.map some ++ [none])[es.length - 1]? = some (some (es.getLast hne)) := by
        rw [List.getElem?_append_left (by simp; omega), List.getLast_eq_getElem]
        simp [List.getElem?_eq_getElem (show es.length - 1 < es.length by omega)]
      have hlen : es.length + 1 - 2 = es.length - 1 := by omega
      have hge : 2 ≤ es.length + 1 := by omega
      have hgl : (es.map some ++ [none]).getLast? = some (none : Option Str) := by simp
      simp only [Nat.zero_add, Res.ok_bind, List.length_append, List.length_map, List.length_cons, List.length_nil,
        hlen, g1, g2, hgl, beq_self_eq_true, Bool.and_true, ge_iff_le, hge, decide_true, ensure_true, Res.pure_eq]
      congr 2
      rw [List.set_append_left _ _ (by simpa using hil), List.set_append_left _ _ (by simp; omega),
        List.dropLast_concat]
      simp only [List.length_set, List.length_map]
      unfold swapRemove
      rw [List.getLast?_eq_some_getLast hne]
      rw [List.set_set]
      apply List.ext_getElem?
      intro j
      have hdl : (es.set i (es.getLast hne)).dropLast.length = es.length - 1 := by simp
      rw [List.getElem?_set, List.getElem?_append]
      simp only [List.length_map, hdl, List.length_set]
      by_cases hj : es.length - 1 = j
      · subst hj
        simp [show es.length - 1 < es.length by omega]
      · by_cases hj2 : j < es.length - 1
        · simp only [hj, if_false, hj2, if_true, List.getElem?_map, List.getElem?_dropLast, List.length_set,
            List.getElem?_set, List.length_map]
          split <;> simp_all
        · have : es.length ≤ j := by omega
          have hj3 : j - (es.length - 1) ≠ 0 := by omega
          simp only [hj, if_false, hj2]
          rw [List.getElem?_eq_none (by simpa using this)]
          rw [List.getElem?_eq_none (by simp; omega)]
    · intro n
      symm
      refine ext_lookup hd hd' (Map.update (lookup es) name none) ?_ n
      intro n w
      simp only [Map.update]
      constructor
      · rintro ⟨j, x, hj, hv⟩
        obtain ⟨k, hk, hx, _⟩ := src j x hj
        have hnn : n ≠ name := by
          rintro rfl; exact hk (hd.defines hx h2 hv h3)
        rw [if_neg hnn]
        exact (lookup_iff hd n w).2 ⟨k, x, hx, hv⟩
      · intro hv
        split at hv
        · cases hv
        · rename_i hnn
          obtain ⟨k, x, hx, hv⟩ := (lookup_iff hd n w).1 hv
          have hk : k ≠ i := by
            rintro rfl
            rw [h2] at hx; cases hx
            exact hnn (Defines.unique hv h3).1
          obtain ⟨j, hj⟩ := dst k x hk hx
          exact ⟨j, x, hj, hv⟩

/-- The calls on which the code agrees with POSIX. -/
def Supported : Op → Prop
  | .setenv n _ _ => n ≠ []
  | .putenv _ => True
  | .unsetenv n => n ≠ [] ∧ eq ∉ n
  | .clearenv => False
  | .setEnviron es => NoDuplicates es

theorem step_refines (s : State) (es : List Str) (h : Has s es) (hd : NoDuplicates es) (op : Op) (hs : Supported op) :
    ∃ s', step s op = .ok ((specStep (lookup es) op).1, s') ∧
      ∃ es', Has s' es' ∧ NoDuplicates es' ∧ lookup es' = (specStep (lookup es) op).2 := by
  cases op with
  | setenv n v o =>
    by_cases hn : eq ∈ n
    · refine ⟨s, ?_, es, h, hd, by simp [specStep, hn]⟩
      cases hf : findFirst eq n with
      | none => exact absurd hn (findFirst_none.1 hf)
      | some i => simp [step, setenv, hf, specStep, hn]
    · obtain ⟨s', h1, es', h2, h3, h4⟩ := assign_rep s es h hd n v hn o
      have hne : n ≠ [] := hs
      refine ⟨s', ?_, es', h2, h3, ?_⟩
      · have : (specStep (lookup es) (.setenv n v o)).1 = 0 := by
          simp only [specStep, hne, hn, or_self, if_false]; split <;> rfl
        rw [this]
        simp only [step, setenv, findFirst_none.2 hn]
        rw [Res.bind_eq_ok] at h1
        obtain ⟨s1, h5, h6⟩ := h1
        simp [h5, h6]
      · funext x
        rw [h4]
        simp only [specStep, hne, hn, or_self, if_false]
        split <;> rfl
  | putenv x =>
    cases hf : findFirst eq x with
    | none =>
      have hn := findFirst_none.1 hf
      obtain ⟨s', h1, es', h2, h3, h4⟩ := unassign_rep s es h hd x
      refine ⟨s', ?_, es', h2, h3, by funext y; rw [h4]; simp [specStep, hn]⟩
      rw [Res.bind_eq_ok] at h1
      obtain ⟨s1, h5, h6⟩ := h1
      simp [step, putenv, hf, h5, h6, specStep, hn]
    | some i =>
      obtain ⟨n, v, h5, h6, h7⟩ := findFirst_some.1 hf
      obtain ⟨s', h1, es', h2, h3, h4⟩ := assign_rep s es h hd n v h6 true
      have hmem : eq ∈ x := by rw [h5]; simp
      have htw := takeWhile_defines (e := x) (n := n) (v := v) ⟨h5, h6⟩
      have hdr : x.drop (n.length + 1) = v := by rw [h5]; simp
      refine ⟨s', ?_, es', h2, h3, ?_⟩
      · rw [Res.bind_eq_ok] at h1
        obtain ⟨s1, h8, h9⟩ := h1
        have : x.take i = n := by rw [h5, ← h7]; simp
        rw [← h5] at h9
        simp [step, putenv, hf, h8, h9, this, specStep, hmem]
      · funext y
        rw [h4]
        simp only [specStep, hmem, if_true, true_or, htw, hdr]
  | unsetenv n =>
    obtain ⟨hne, hn⟩ := hs
    obtain ⟨s', h1, es', h2, h3, h4⟩ := unassign_rep s es h hd n
    refine ⟨s', ?_, es', h2, h3, by funext y; rw [h4]; simp [specStep, hn, hne]⟩
    rw [Res.bind_eq_ok] at h1
    obtain ⟨s1, h5, h6⟩ := h1
    simp [step, unsetenv, h5, h6, specStep, hn, hne]
  | clearenv => exact absurd hs id
  | setEnviron es' =>
    exact ⟨_, rfl, es', by simp [Has, State.array], hs, rfl⟩

theorem run_refines (ops : List Op) : ∀ (s : State) (es : List Str), Has s es → NoDuplicates es →
    (∀ op ∈ ops, Supported op) →
    ∃ s', run s ops = .ok ((specRun (lookup es) ops).1, s') ∧
      ∃ es', Has s' es' ∧ NoDuplicates es' ∧ lookup es' = (specRun (lookup es) ops).2 := by
  induction ops with
  | nil => intro s es h hd _; exact ⟨s, rfl, es, h, hd, rfl⟩
  | cons op ops ih =>
    intro s es h hd hs
    obtain ⟨s1, h1, es1, h2, h3, h4⟩ := step_refines s es h hd op (hs op (by simp))
    obtain ⟨s2, h5, es2, h6, h7, h8⟩ := ih s1 es1 h2 h3 fun o ho => hs o (by simp [ho])
    refine ⟨s2, ?_, es2, h6, h7, ?_⟩
    · simp only [run, h1, Res.ok_bind, h5, Res.pure_eq, specRun, h4]
    · rw [h8, h4]; rfl

/-- **C22, partial.** For every initial environment without duplicate names and every history of setenv, putenv,
unsetenv and assignments to `environ`, the calls return what POSIX demands and afterwards getenv of every name
returns the value in the map obtained by applying the calls in order.
Missing: clearenv, setenv/unsetenv with names that must be rejected, environments with duplicate names (all of them
violate the property, see below). -/
theorem env_is_map_partial (entries : List Str) (hd : NoDuplicates entries) (ops : List Op)
    (hs : ∀ op ∈ ops, Supported op) :
    ∃ s, run (init entries) ops = .ok ((specRun (lookup entries) ops).1, s) ∧
      ∀ name, getenv s name = .ok ((specRun (lookup entries) ops).2 name) := by
  obtain ⟨s, h1, es, h2, h3, h4⟩ := run_refines ops (init entries) entries (by simp [Has, init, State.array]) hd hs
  exact ⟨s, h1, fun name => by rw [getenv_first s es h2, h4]⟩

/-- A name containing `=` is rejected by setenv in every state, without effect. -/
theorem setenv_rejects (s : State) (n v : Str) (o : Bool) (h : eq ∈ n) : setenv s n v o = .ok (-1, s) := by
  cases hf : findFirst eq n with
  | none => exact absurd h (findFirst_none.1 hf)
  | some i => simp [setenv, hf]

/-- clearenv changes no variable. -/
theorem clearenv_violated (s : State) (es : List Str) (h : Has s es) (name : Str) :
    ∃ s', clearenv s = .ok (0, s') ∧ getenv s' name = getenv s name := by
  refine ⟨⟨none, es.map some ++ [none]⟩, by simp [clearenv, updateVector_eq s es h], ?_⟩
  rw [getenv_first _ es (by simp [Has, State.array]), getenv_first s es h]

/-- `A=1`, `A=2`: after unsetenv("A") the variable still has a value. -/
theorem unsetenv_duplicate_violated :
    ∃ s, run (init [[65, 61, 49], [65, 61, 50]]) [.unsetenv [65]] = .ok ([0], s) ∧ getenv s [65] = .ok (some [50]) :=
  ⟨_, rfl, by decide⟩

/-- `B=0`, `A=1`, `A=2`: unsetenv("B") changes the value of `A` from 1 to 2. -/
theorem unsetenv_other_violated :
    getenv (init [[66, 61, 48], [65, 61, 49], [65, 61, 50]]) [65] = .ok (some [49]) ∧
    ∃ s, run (init [[66, 61, 48], [65, 61, 49], [65, 61, 50]]) [.unsetenv [66]] = .ok ([0], s) ∧
      getenv s [65] = .ok (some [50]) :=
  ⟨by decide, _, rfl, by decide⟩

/-- setenv accepts the empty name; unsetenv accepts the empty name and names containing `=`. -/
theorem empty_name_violated (v n : Str) :
    ∃ s, setenv (init []) [] v true = .ok (0, s) ∧ unsetenv (init []) n = .ok (0, ⟨none, [none]⟩) :=
  ⟨_, rfl, rfl⟩

/-- A history with all supported calls; `A=1` is inherited, `C` has no `=`. -/
example : NoDuplicates [[65, 61, 49], [67], [66, 61, 50]] ∧
    ∀ op ∈ [Op.setenv [65] [57] false, .setenv [68] [56] true, .putenv [66, 61, 55], .unsetenv [65]], Supported op := by
  constructor
  · have key : ∀ (k : Nat) (n v : Str), [[65, 61, 49], [67], [66, 61, 50]][k]? = some (n ++ eq :: v) → eq ∉ n →
        (k = 0 ∧ n = [65]) ∨ (k = 2 ∧ n = [66]) := by
      intro k n v h hn
      match k with
      | 0 =>
        simp at h
        obtain ⟨rfl, _⟩ := Defines.unique (e := [65, 61, 49]) (n := [65]) (v := [49]) ⟨rfl, by decide⟩ ⟨h, hn⟩
        exact Or.inl ⟨rfl, rfl⟩
      | 1 =>
        have h3 : eq ∈ ([67] : Str) := by
          have := Option.some.inj h
          rw [this]; simp
        exact absurd h3 (by decide)
      | 2 =>
        simp at h
        obtain ⟨rfl, _⟩ := Defines.unique (e := [66, 61, 50]) (n := [66]) (v := [50]) ⟨rfl, by decide⟩ ⟨h, hn⟩
        exact Or.inr ⟨rfl, rfl⟩
      | _ + 3 => simp at h
    intro i j n v w hn hi hj
    rcases key i n v hi hn with ⟨rfl, rfl⟩ | ⟨rfl, rfl⟩ <;> rcases key j _ w hj hn with ⟨rfl, h⟩ | ⟨rfl, h⟩ <;>
      first | rfl | exact absurd h (by decide)
  · simp only [List.mem_cons, List.not_mem_nil, or_false]
    rintro op (rfl | rfl | rfl | rfl) <;> simp only [Supported] <;> decide
example : (run (init [[65, 61, 49], [66, 61, 50]])
      [.setenv [65] [57] false, .setenv [68] [56] true, .putenv [66, 61, 55], .unsetenv [65]]).isOk ∧
    (run (init [[65, 61, 49], [66, 61, 50]])
      [.setenv [65] [57] false, .setenv [68] [56] true, .putenv [66, 61, 55], .unsetenv [65]]
      >>= fun r => getenv r.2 [66]) = .ok (some [55]) := by decide

end Mlibc.Env
