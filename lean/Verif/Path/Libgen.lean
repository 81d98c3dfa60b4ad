import Verif.Base

/-
`basename` and `dirname` (options/posix/generic/libgen.cpp L9-50). A path is the list of the bytes before the
terminator; the functions write terminators into the caller's buffer, which is the path followed by a zero byte.
Property C54.
-/
namespace Mlibc.Libgen

/-- `'/'` -/
abbrev slash : UInt8 := 47

/-- What the caller gets: the string at the returned pointer. -/
def cstr (b : List UInt8) : List UInt8 := b.takeWhile (· ≠ 0)

/-- "Delete trailing slashes": `for(; i && s[i] == '/'; i--) s[i] = 0;`; result: buffer and `i`. libgen.cpp L17-18 -/
def trim (b : List UInt8) : Nat → Res (List UInt8 × Nat)
  | 0 => .ok (b, 0)
  | i + 1 =>
    match b[i + 1]? with
    | none => .ub
    | some c => if c = slash then trim (b.set (i + 1) 0) i else .ok (b, i + 1)

/-- `for(; i && s[i - 1] != '/'; i--);` L21-22 -/
def findSlash (b : List UInt8) : Nat → Res Nat
  | 0 => .ok 0
  | i + 1 =>
    match b[i]? with
    | none => .ub
    | some c => if c ≠ slash then findSlash b i else .ok (i + 1)

/-- `basename`: the returned string; `none` is the null pointer. L9-24 -/
def basename : Option (List UInt8) → Res (List UInt8)
  | none => .ok [46]
  | some [] => .ok [46]
  | some (c :: cs) => do
    let (b, i) ← trim (c :: cs ++ [0]) cs.length
    let i ← findSlash b i
    return cstr (b.drop i)

/-- `for (; s[i] == '/'; i--) if(!i) return ...;`: `none` when index 0 is reached. L33-35, L43-45 -/
def skipSlashes (b : List UInt8) : Nat → Res (Option Nat)
  | 0 =>
    match b[0]? with
    | none => .ub
    | some c => if c = slash then .ok none else .ok (some 0)
  | i + 1 =>
    match b[i + 1]? with
    | none => .ub
    | some c => if c = slash then skipSlashes b i else .ok (some (i + 1))

/-- `for (; s[i] != '/'; i--) if(!i) return ".";` L38-40 -/
def skipComponent (b : List UInt8) : Nat → Res (Option Nat)
  | 0 =>
    match b[0]? with
    | none => .ub
    | some c => if c ≠ slash then .ok none else .ok (some 0)
  | i + 1 =>
    match b[i + 1]? with
    | none => .ub
    | some c => if c ≠ slash then skipComponent b i else .ok (some (i + 1))

/-- `dirname`. L26-50 -/
def dirname : Option (List UInt8) → Res (List UInt8)
  | none => .ok [46]
  | some [] => .ok [46]
  | some (c :: cs) => do
    let b := c :: cs ++ [0]
    match ← skipSlashes b cs.length with
    | none => return [slash]
    | some i =>
      match ← skipComponent b i with
      | none => return [46]
      | some i =>
        match ← skipSlashes b i with
        | none => return [slash]
        | some i => if i + 1 < b.length then return cstr (b.set (i + 1) 0) else .ub

/-! ## Specification -/

/-- Only slashes. -/
def Slashes (p : List UInt8) : Prop := ∀ x ∈ p, x = slash

/-- A path component: not empty, no slashes, no zero byte. -/
def Component (c : List UInt8) : Prop := c ≠ [] ∧ ∀ x ∈ c, x ≠ slash ∧ x ≠ 0

/-- A directory prefix that does not end in a slash. -/
def Prefix (d : List UInt8) : Prop := (∀ x ∈ d, x ≠ 0) ∧ ∃ e x, d = e ++ [x] ∧ x ≠ slash

/-- The components of a path, without the empty ones and `.`. -/
def components (p : List UInt8) : List (List UInt8) :=
  (p.foldr (fun x acc => if x = slash then [] :: acc else
    match acc with | [] => [[x]] | y :: ys => (x :: y) :: ys) [[]]).filter (fun c => c ≠ [] ∧ c ≠ [46])

/-! ## Proof -/

theorem get_mid (a : List UInt8) (x : UInt8) (b : List UInt8) : (a ++ x :: b)[a.length]? = some x := by simp

theorem set_mid (a : List UInt8) (x y : UInt8) (b : List UInt8) : (a ++ x :: b).set a.length y = a ++ y :: b := by
  simp

/-- Trimming trailing slashes after something else. -/
theorem trim_slashes (p : List UInt8) (x : UInt8) (hx : x ≠ slash) (t : List UInt8) (ht : Slashes t)
    (r : List UInt8) : trim (p ++ x :: (t ++ r)) (p.length + t.length) =
      .ok (p ++ x :: (t.map (fun _ => 0) ++ r), p.length) := by
  induction hk : t.length generalizing t r with
  | zero =>
    obtain rfl : t = [] := List.length_eq_zero_iff.1 hk
    cases p with
    | nil => rfl
    | cons q p =>
      simp only [List.length_cons, Nat.add_zero]
      rw [trim]
      have := get_mid (q :: p) x ([] ++ r)
      simp only [List.length_cons] at this
      rw [this]
      simp [hx]
  | succ k ih =>
    obtain ⟨ini, y, rfl⟩ : ∃ ini y, t = ini ++ [y] := by
      have hne : t ≠ [] := by intro h; rw [h] at hk; simp at hk
      exact ⟨t.dropLast, t.getLast hne, (List.dropLast_concat_getLast hne).symm⟩
    have hlen : ini.length = k := by simpa using hk
    have hy : y = slash := ht y (by simp)
    rw [← Nat.add_assoc, trim]
    have e : p ++ x :: (ini ++ [y] ++ r) = (p ++ x :: ini) ++ y :: r := by simp
    have l : p.length + k + 1 = (p ++ x :: ini).length := by simp [hlen]; omega
    rw [e, l, get_mid]
    simp only
    rw [if_pos hy, set_mid]
    have := ih ini (fun z hz => ht z (by simp [hz])) (0 :: r) hlen
    rw [show (p ++ x :: ini) ++ 0 :: r = p ++ x :: (ini ++ 0 :: r) by simp, this]
    simp

theorem trim_all (t : List UInt8) (ht : Slashes t) (x : UInt8) (r : List UInt8) : trim (x :: (t ++ r)) t.length =
    .ok (x :: (t.map (fun _ => 0) ++ r), 0) := by
  induction hk : t.length generalizing t r with
  | zero =>
    obtain rfl : t = [] := List.length_eq_zero_iff.1 hk
    rfl
  | succ k ih =>
    obtain ⟨ini, y, rfl⟩ : ∃ ini y, t = ini ++ [y] := by
      have hne : t ≠ [] := by intro h; rw [h] at hk; simp at hk
      exact ⟨t.dropLast, t.getLast hne, (List.dropLast_concat_getLast hne).symm⟩
    have hlen : ini.length = k := by simpa using hk
    have hy : y = slash := ht y (by simp)
    rw [trim]
    have e : x :: (ini ++ [y] ++ r) = (x :: ini) ++ y :: r := by simp
    have l : k + 1 = (x :: ini).length := by simp [hlen]
    rw [e, l, get_mid]
    simp only
    rw [if_pos hy, set_mid]
    have := ih ini (fun z hz => ht z (by simp [hz])) (0 :: r) hlen
    rw [show (x :: ini) ++ 0 :: r = x :: (ini ++ 0 :: r) by simp, this]
    simp

/-- Going back over a component to the slash before it, or to the start. -/
theorem findSlash_component (d : List UInt8) (hd : d = [] ∨ ∃ e, d = e ++ [slash]) (c : List UInt8)
    (hc : ∀ x ∈ c, x ≠ slash) (r : List UInt8) : findSlash (d ++ (c ++ r)) (d.length + c.length) = .ok d.length := by
  induction hk : c.length generalizing c r with
  | zero =>
    obtain rfl : c = [] := List.length_eq_zero_iff.1 hk
    rcases hd with rfl | ⟨e, rfl⟩
    · rfl
    · simp only [List.length_append, List.length_singleton, Nat.add_zero]
      rw [findSlash]
      rw [show (e ++ [slash]) ++ ([] ++ r) = e ++ slash :: r by simp, get_mid]
      simp
  | succ k ih =>
    obtain ⟨ini, y, rfl⟩ : ∃ ini y, c = ini ++ [y] := by
      have hne : c ≠ [] := by intro h; rw [h] at hk; simp at hk
      exact ⟨c.dropLast, c.getLast hne, (List.dropLast_concat_getLast hne).symm⟩
    have hlen : ini.length = k := by simpa using hk
    rw [← Nat.add_assoc, findSlash]
    have e : d ++ (ini ++ [y] ++ r) = (d ++ ini) ++ y :: r := by simp
    rw [e, show d.length + k = (d ++ ini).length by simp [hlen], get_mid]
    simp only
    rw [if_pos (hc y (by simp))]
    have := ih ini (fun z hz => hc z (by simp [hz])) (y :: r) hlen
    rw [show (d ++ ini) ++ y :: r = d ++ (ini ++ y :: r) by simp, show (d ++ ini).length = d.length + k by simp [hlen],
      this]

theorem cstr_append (c r : List UInt8) (hc : ∀ x ∈ c, x ≠ 0) : cstr (c ++ 0 :: r) = c := by
  unfold cstr
  rw [List.takeWhile_append_of_pos (by simpa using hc)]
  simp

theorem zeros_cons (t : List UInt8) : ∃ r, t.map (fun _ => (0 : UInt8)) ++ [0] = 0 :: r := by
  cases t with
  | nil => exact ⟨[], rfl⟩
  | cons x t => exact ⟨_, rfl⟩

theorem last_split (c : List UInt8) (h : c ≠ []) : ∃ ini y, c = ini ++ [y] :=
  ⟨c.dropLast, c.getLast h, (List.dropLast_concat_getLast h).symm⟩

/-- Unfolding `basename` on a nonempty path. -/
theorem basename_eq (p : List UInt8) (h : p ≠ []) : basename (some p) = (do
    let (b, i) ← trim (p ++ [0]) (p.length - 1)
    let i ← findSlash b i
    return cstr (b.drop i)) := by
  cases p with
  | nil => exact absurd rfl h
  | cons c cs => rfl

/-- **C54**: `basename` of a path whose last component is `c` is `c`. -/
theorem basename_component (d c t : List UInt8) (hd : d = [] ∨ ∃ e, d = e ++ [slash]) (hc : Component c)
    (ht : Slashes t) : basename (some (d ++ c ++ t)) = .ok c := by
  obtain ⟨hne, hc⟩ := hc
  obtain ⟨ini, y, rfl⟩ := last_split c hne
  rw [basename_eq _ (by simp)]
  have e : (d ++ (ini ++ [y]) ++ t) ++ [0] = (d ++ ini) ++ y :: (t ++ [0]) := by simp
  have l : (d ++ (ini ++ [y]) ++ t).length - 1 = (d ++ ini).length + t.length := by simp; omega
  rw [e, l, trim_slashes _ y (hc y (by simp)).1 t ht]
  simp only [Res.ok_bind]
  obtain ⟨r, hr⟩ := zeros_cons t
  rw [hr]
  have := findSlash_component d hd ini (fun x hx => (hc x (by simp [hx])).1) (y :: 0 :: r)
  rw [show (d ++ ini) ++ y :: 0 :: r = d ++ (ini ++ y :: 0 :: r) by simp, List.length_append, this]
  simp only [Res.ok_bind, Res.pure_eq, List.drop_left]
  congr 1
  rw [show ini ++ y :: 0 :: r = (ini ++ [y]) ++ 0 :: r by simp]
  exact cstr_append _ _ (fun x hx => (hc x hx).2)

example : basename (some [47, 97, 47, 98, 99, 47, 47]) = .ok [98, 99] := by decide

/-- **C54**: `basename` of a path of slashes only is `/`, of the empty path and the null pointer `.`. -/
theorem basename_special (t : List UInt8) (ht : Slashes t) (hne : t ≠ []) : basename (some t) = .ok [slash] ∧
    basename (some []) = .ok [46] ∧ basename none = .ok [46] := by
  refine ⟨?_, rfl, rfl⟩
  cases t with
  | nil => exact absurd rfl hne
  | cons x t =>
    have hx : x = slash := ht x (by simp)
    rw [basename_eq _ (by simp)]
    simp only [List.length_cons, Nat.add_sub_cancel, List.cons_append]
    rw [trim_all t (fun z hz => ht z (by simp [hz]))]
    simp only [Res.ok_bind, findSlash, List.drop_zero, Res.pure_eq]
    obtain ⟨r, hr⟩ := zeros_cons t
    rw [hr, hx]
    rfl

theorem skipSlashes_some (p : List UInt8) (x : UInt8) (hx : x ≠ slash) (t : List UInt8) (ht : Slashes t)
    (r : List UInt8) : skipSlashes (p ++ x :: (t ++ r)) (p.length + t.length) = .ok (some p.length) := by
  induction hk : t.length generalizing t r with
  | zero =>
    obtain rfl : t = [] := List.length_eq_zero_iff.1 hk
    have := get_mid p x ([] ++ r)
    rw [Nat.add_zero]
    cases hp : p.length with
    | zero => rw [skipSlashes, ← hp, this]; simp [hx]
    | succ n => rw [skipSlashes, ← hp, this]; simp [hx]
  | succ k ih =>
    obtain ⟨ini, y, rfl⟩ := last_split t (by intro h; rw [h] at hk; simp at hk)
    have hlen : ini.length = k := by simpa using hk
    have hy : y = slash := ht y (by simp)
    rw [← Nat.add_assoc, skipSlashes]
    have e : p ++ x :: (ini ++ [y] ++ r) = (p ++ x :: ini) ++ y :: r := by simp
    have l : p.length + k + 1 = (p ++ x :: ini).length := by simp [hlen]; omega
    rw [e, l, get_mid]
    simp only
    rw [if_pos hy]
    have := ih ini (fun z hz => ht z (by simp [hz])) (y :: r) hlen
    rw [show (p ++ x :: ini) ++ y :: r = p ++ x :: (ini ++ y :: r) by simp, this]

theorem skipSlashes_none (t : List UInt8) (ht : Slashes t) (x : UInt8) (hx : x = slash) (r : List UInt8) :
    skipSlashes (t ++ x :: r) t.length = .ok none := by
  induction hk : t.length generalizing t x r with
  | zero =>
    obtain rfl : t = [] := List.length_eq_zero_iff.1 hk
    simp [skipSlashes, hx]
  | succ k ih =>
    obtain ⟨ini, y, rfl⟩ := last_split t (by intro h; rw [h] at hk; simp at hk)
    have hlen : ini.length = k := by simpa using hk
    rw [skipSlashes, show k + 1 = (ini ++ [y]).length by simp [hlen], get_mid]
    simp only
    rw [if_pos hx]
    have := ih ini (fun z hz => ht z (by simp [hz])) y (ht y (by simp)) (x :: r) hlen
    rw [show (ini ++ [y]) ++ x :: r = ini ++ y :: (x :: r) by simp, this]

theorem skipComponent_none (c : List UInt8) (hc : ∀ x ∈ c, x ≠ slash) (x : UInt8) (hx : x ≠ slash) (r : List UInt8) :
    skipComponent (c ++ x :: r) c.length = .ok none := by
  induction hk : c.length generalizing c x r with
  | zero =>
    obtain rfl : c = [] := List.length_eq_zero_iff.1 hk
    simp [skipComponent, hx]
  | succ k ih =>
    obtain ⟨ini, y, rfl⟩ := last_split c (by intro h; rw [h] at hk; simp at hk)
    have hlen : ini.length = k := by simpa using hk
    rw [skipComponent, show k + 1 = (ini ++ [y]).length by simp [hlen], get_mid]
    simp only
    rw [if_pos hx]
    have := ih ini (fun z hz => hc z (by simp [hz])) y (hc y (by simp)) (x :: r) hlen
    rw [show (ini ++ [y]) ++ x :: r = ini ++ y :: (x :: r) by simp, this]

theorem skipComponent_some (p : List UInt8) (c : List UInt8) (hc : ∀ x ∈ c, x ≠ slash) (r : List UInt8) :
    skipComponent (p ++ slash :: (c ++ r)) (p.length + c.length) = .ok (some p.length) := by
  induction hk : c.length generalizing c r with
  | zero =>
    obtain rfl : c = [] := List.length_eq_zero_iff.1 hk
    have := get_mid p slash ([] ++ r)
    rw [Nat.add_zero]
    cases hp : p.length with
    | zero => rw [skipComponent, ← hp, this]; simp
    | succ n => rw [skipComponent, ← hp, this]; simp
  | succ k ih =>
    obtain ⟨ini, y, rfl⟩ := last_split c (by intro h; rw [h] at hk; simp at hk)
    have hlen : ini.length = k := by simpa using hk
    rw [← Nat.add_assoc, skipComponent]
    have e : p ++ slash :: (ini ++ [y] ++ r) = (p ++ slash :: ini) ++ y :: r := by simp
    have l : p.length + k + 1 = (p ++ slash :: ini).length := by simp [hlen]; omega
    rw [e, l, get_mid]
    simp only
    rw [if_pos (hc y (by simp))]
    have := ih ini (fun z hz => hc z (by simp [hz])) (y :: r) hlen
    rw [show (p ++ slash :: ini) ++ y :: r = p ++ slash :: (ini ++ y :: r) by simp, this]

/-- Unfolding `dirname` on a nonempty path. -/
theorem dirname_eq (p : List UInt8) (h : p ≠ []) : dirname (some p) = (do
    match ← skipSlashes (p ++ [0]) (p.length - 1) with
    | none => return [slash]
    | some i =>
      match ← skipComponent (p ++ [0]) i with
      | none => return [46]
      | some i =>
        match ← skipSlashes (p ++ [0]) i with
        | none => return [slash]
        | some i => if i + 1 < (p ++ [0]).length then return cstr ((p ++ [0]).set (i + 1) 0) else .ub) := by
  cases p with
  | nil => exact absurd rfl h
  | cons c cs => rfl

/-- **C54**: `dirname` of a path with a single component is `.`. -/
theorem dirname_single (c t : List UInt8) (hc : Component c) (ht : Slashes t) :
    dirname (some (c ++ t)) = .ok [46] := by
  obtain ⟨hne, hc⟩ := hc
  obtain ⟨ini, y, rfl⟩ := last_split c hne
  rw [dirname_eq _ (by simp)]
  have e : (ini ++ [y] ++ t) ++ [0] = ini ++ y :: (t ++ [0]) := by simp
  have l : (ini ++ [y] ++ t).length - 1 = ini.length + t.length := by simp
  rw [e, l, skipSlashes_some _ y (hc y (by simp)).1 t ht]
  simp only [Res.ok_bind]
  rw [skipComponent_none ini (fun x hx => (hc x (by simp [hx])).1) y (hc y (by simp)).1]
  rfl

/-- **C54**: `dirname` of an entry of the root directory is `/`. -/
theorem dirname_root (s c t : List UInt8) (hs : Slashes s) (hsne : s ≠ []) (hc : Component c) (ht : Slashes t) :
    dirname (some (s ++ c ++ t)) = .ok [slash] := by
  obtain ⟨hne, hc⟩ := hc
  obtain ⟨ini, y, rfl⟩ := last_split c hne
  obtain ⟨s', z, rfl⟩ := last_split s hsne
  have hz : z = slash := hs z (by simp)
  subst hz
  rw [dirname_eq _ (by simp)]
  have e : (s' ++ [slash] ++ (ini ++ [y]) ++ t) ++ [0] = (s' ++ [slash] ++ ini) ++ y :: (t ++ [0]) := by simp
  have l : (s' ++ [slash] ++ (ini ++ [y]) ++ t).length - 1 = (s' ++ [slash] ++ ini).length + t.length := by
    simp; omega
  rw [e, l, skipSlashes_some _ y (hc y (by simp)).1 t ht]
  simp only [Res.ok_bind]
  have h2 := skipComponent_some s' (ini ++ [y]) (fun x hx => (hc x hx).1) (t ++ [0])
  rw [show (s' ++ [slash] ++ ini) ++ y :: (t ++ [0]) = s' ++ slash :: ((ini ++ [y]) ++ (t ++ [0])) by simp,
    show (s' ++ [slash] ++ ini).length = s'.length + (ini ++ [y]).length by simp, h2]
  simp only [Res.ok_bind]
  rw [skipSlashes_none s' (fun x hx => hs x (by simp [hx])) slash rfl]
  rfl

/-- **C54**: otherwise `dirname` is the path without its last component and the slashes around it. -/
theorem dirname_prefix (d s c t : List UInt8) (hd : Prefix d) (hs : Slashes s) (hsne : s ≠ []) (hc : Component c)
    (ht : Slashes t) : dirname (some (d ++ s ++ c ++ t)) = .ok d := by
  obtain ⟨hne, hc⟩ := hc
  obtain ⟨hd0, e, x, rfl, hx⟩ := hd
  obtain ⟨ini, y, rfl⟩ := last_split c hne
  obtain ⟨s', z, rfl⟩ := last_split s hsne
  have hz : z = slash := hs z (by simp)
  subst hz
  rw [dirname_eq _ (by simp)]
  have e1 : ((e ++ [x]) ++ (s' ++ [slash]) ++ (ini ++ [y]) ++ t) ++ [0] =
      ((e ++ [x]) ++ (s' ++ [slash]) ++ ini) ++ y :: (t ++ [0]) := by simp
  have l : ((e ++ [x]) ++ (s' ++ [slash]) ++ (ini ++ [y]) ++ t).length - 1 =
      ((e ++ [x]) ++ (s' ++ [slash]) ++ ini).length + t.length := by
    simp; omega
  rw [e1, l, skipSlashes_some _ y (hc y (by simp)).1 t ht]
  simp only [Res.ok_bind]
  have h2 := skipComponent_some (e ++ [x] ++ s') (ini ++ [y]) (fun x hx => (hc x hx).1) (t ++ [0])
  rw [show ((e ++ [x]) ++ (s' ++ [slash]) ++ ini) ++ y :: (t ++ [0]) =
      (e ++ [x] ++ s') ++ slash :: ((ini ++ [y]) ++ (t ++ [0])) by simp,
    show ((e ++ [x]) ++ (s' ++ [slash]) ++ ini).length = (e ++ [x] ++ s').length + (ini ++ [y]).length by simp; omega,
    h2]
  simp only [Res.ok_bind]
  have h3 := skipSlashes_some e x hx (s' ++ [slash]) hs ((ini ++ [y]) ++ (t ++ [0]))
  have h4 : skipSlashes ((e ++ [x] ++ s') ++ slash :: ((ini ++ [y]) ++ (t ++ [0]))) (e ++ [x] ++ s').length =
      .ok (some e.length) := by
    rw [← h3]
    congr 1
    · simp
    · simp
  rw [h4]
  simp only [Res.ok_bind]
  rw [if_pos (by simp; omega)]
  obtain ⟨w, r, hw⟩ : ∃ w r, s' ++ slash :: ((ini ++ [y]) ++ (t ++ [0])) = w :: r := by
    cases s' with
    | nil => exact ⟨_, _, rfl⟩
    | cons w r => exact ⟨_, _, rfl⟩
  have h5 : (e ++ [x] ++ s') ++ slash :: ((ini ++ [y]) ++ (t ++ [0])) = (e ++ [x]) ++ w :: r := by
    rw [List.append_assoc, hw]
  rw [h5, show e.length + 1 = (e ++ [x]).length by simp, set_mid, Res.pure_eq, cstr_append _ _ hd0]

example : dirname (some [97, 47, 47, 98, 47]) = .ok [97] := by decide

/-- **C54**: `dirname` of a path of slashes only is `/`, of the empty path and the null pointer `.`. -/
theorem dirname_special (t : List UInt8) (ht : Slashes t) (hne : t ≠ []) : dirname (some t) = .ok [slash] ∧
    dirname (some []) = .ok [46] ∧ dirname none = .ok [46] := by
  refine ⟨?_, rfl, rfl⟩
  obtain ⟨ini, y, rfl⟩ := last_split t hne
  rw [dirname_eq _ (by simp)]
  have h := skipSlashes_none ini (fun x hx => ht x (by simp [hx])) y (ht y (by simp)) [0]
  rw [show (ini ++ [y]) ++ [0] = ini ++ y :: [0] by simp, show (ini ++ [y]).length - 1 = ini.length by simp, h]
  rfl

/-! ### Every path is covered -/

theorem split_slashes (p : List UInt8) : ∃ q t, p = q ++ t ∧ Slashes t ∧ (q = [] ∨ ∃ e x, q = e ++ [x] ∧ x ≠ slash) := by
  induction hk : p.length generalizing p with
  | zero => exact ⟨[], [], by simpa using hk, by simp [Slashes], .inl rfl⟩
  | succ k ih =>
    obtain ⟨ini, y, rfl⟩ := last_split p (by intro h; rw [h] at hk; simp at hk)
    by_cases hy : y = slash
    · obtain ⟨q, t, h1, h2, h3⟩ := ih ini (by simpa using hk)
      refine ⟨q, t ++ [y], by rw [h1]; simp, ?_, h3⟩
      intro x hx
      rcases List.mem_append.1 hx with hx | hx
      · exact h2 x hx
      · rw [List.mem_singleton.1 hx]; exact hy
    · exact ⟨ini ++ [y], [], by simp, by simp [Slashes], .inr ⟨ini, y, rfl, hy⟩⟩

theorem split_component (p : List UInt8) : ∃ d c, p = d ++ c ∧ (∀ x ∈ c, x ≠ slash) ∧
    (d = [] ∨ ∃ e, d = e ++ [slash]) := by
  induction hk : p.length generalizing p with
  | zero => exact ⟨[], [], by simpa using hk, by simp, .inl rfl⟩
  | succ k ih =>
    obtain ⟨ini, y, rfl⟩ := last_split p (by intro h; rw [h] at hk; simp at hk)
    by_cases hy : y = slash
    · subst hy; exact ⟨ini ++ [slash], [], by simp, by simp, .inr ⟨ini, rfl⟩⟩
    · obtain ⟨d, c, h1, h2, h3⟩ := ih ini (by simpa using hk)
      refine ⟨d, c ++ [y], by rw [h1]; simp, ?_, h3⟩
      intro x hx
      rcases List.mem_append.1 hx with hx | hx
      · exact h2 x hx
      · rw [List.mem_singleton.1 hx]; exact hy

/-- Every path without zero bytes has one of the forms of the theorems above. -/
theorem path_cases (p : List UInt8) (h0 : ∀ x ∈ p, x ≠ 0) : Slashes p ∨ (∃ c t, p = c ++ t ∧ Component c ∧ Slashes t) ∨
    (∃ s c t, p = s ++ c ++ t ∧ Slashes s ∧ s ≠ [] ∧ Component c ∧ Slashes t) ∨
    (∃ d s c t, p = d ++ s ++ c ++ t ∧ Prefix d ∧ Slashes s ∧ s ≠ [] ∧ Component c ∧ Slashes t) := by
  obtain ⟨q, t, rfl, ht, hq⟩ := split_slashes p
  rcases hq with rfl | ⟨e, x, rfl, hx⟩
  · left; simpa using ht
  · obtain ⟨d, c, hdc, hc, hd⟩ := split_component (e ++ [x])
    have hcne : c ≠ [] := by
      rintro rfl
      rcases hd with rfl | ⟨e', rfl⟩
      · simp at hdc
      · rw [List.append_nil] at hdc
        have := (List.append_inj' hdc rfl).2
        exact hx (by simpa using this)
    have hC : Component c := ⟨hcne, fun z hz => ⟨hc z hz, h0 z (by rw [hdc]; simp [hz])⟩⟩
    rw [hdc]
    rcases hd with rfl | ⟨e', rfl⟩
    · exact .inr (.inl ⟨c, t, by simp, hC, ht⟩)
    · obtain ⟨q, s, hqs, hs, hq⟩ := split_slashes (e' ++ [slash])
      have hsne : s ≠ [] := by
        rintro rfl
        rw [List.append_nil] at hqs
        rcases hq with rfl | ⟨e2, x2, rfl, hx2⟩
        · simp at hqs
        · have := (List.append_inj' hqs rfl).2
          exact hx2 (by simpa using this.symm)
      rw [hqs]
      rcases hq with rfl | ⟨e2, x2, rfl, hx2⟩
      · exact .inr (.inr (.inl ⟨s, c, t, by simp, hs, hsne, hC, ht⟩))
      · refine .inr (.inr (.inr ⟨e2 ++ [x2], s, c, t, rfl, ⟨?_, e2, x2, rfl, hx2⟩, hs, hsne, hC, ht⟩))
        intro z hz
        exact h0 z (by rw [hdc, hqs]; simp at hz ⊢; rcases hz with h | h <;> simp [h])

/-! ### Recombination -/

/-- Splitting at slashes. -/
def split (p : List UInt8) : List (List UInt8) :=
  p.foldr (fun x acc => if x = slash then [] :: acc else match acc with | [] => [[x]] | y :: ys => (x :: y) :: ys) [[]]

theorem split_ne (p : List UInt8) : split p ≠ [] := by
  cases p with
  | nil => simp [split]
  | cons x p =>
    rw [split, List.foldr_cons]
    split
    · simp
    · split <;> simp

theorem split_append (a b : List UInt8) : split (a ++ slash :: b) = split a ++ split b := by
  induction a with
  | nil => simp [split]
  | cons x a ih =>
    have h1 : ∀ q, split (x :: q) = if x = slash then [] :: split q else
        match split q with | [] => [[x]] | y :: ys => (x :: y) :: ys := fun q => rfl
    rw [List.cons_append, h1, h1, ih]
    by_cases hx : x = slash
    · simp [hx]
    · rw [if_neg hx, if_neg hx]
      cases hs : split a with
      | nil => exact absurd hs (split_ne a)
      | cons y ys => rfl

theorem components_append (a b : List UInt8) : components (a ++ slash :: b) = components a ++ components b := by
  show (split (a ++ slash :: b)).filter _ = (split a).filter _ ++ (split b).filter _
  rw [split_append, List.filter_append]

theorem components_slashes_left (s b : List UInt8) (hs : Slashes s) : components (s ++ b) = components b := by
  induction s with
  | nil => rfl
  | cons x s ih =>
    have : x = slash := hs x (by simp)
    subst this
    have := components_append [] (s ++ b)
    rw [List.nil_append] at this
    rw [List.cons_append, this, ih (fun z hz => hs z (by simp [hz]))]
    rfl

theorem components_slashes (s : List UInt8) (hs : Slashes s) : components s = [] := by
  have := components_slashes_left s [] hs
  rw [List.append_nil] at this
  rw [this]
  rfl

theorem components_mid (a s b : List UInt8) (hs : Slashes s) (hne : s ≠ []) :
    components (a ++ s ++ b) = components a ++ components b := by
  cases s with
  | nil => exact absurd rfl hne
  | cons x s =>
    have : x = slash := hs x (by simp)
    subst this
    rw [List.append_assoc, List.cons_append, components_append, components_slashes_left s b (fun z hz => hs z (by simp [hz]))]

theorem components_slashes_right (a s : List UInt8) (hs : Slashes s) : components (a ++ s) = components a := by
  by_cases hne : s = []
  · rw [hne, List.append_nil]
  · have := components_mid a s [] hs hne
    rw [List.append_nil] at this
    rw [this]
    simp [components]

/-- Whether a path is absolute. -/
def absolute (p : List UInt8) : Prop := p.head? = some slash

/-- **C54**: both functions succeed on every path without touching memory outside it, and `dirname/basename` has the
same components (apart from `.`) as the path, and is absolute exactly if the path is. -/
theorem recombine (p : List UInt8) (h0 : ∀ x ∈ p, x ≠ 0) : ∃ d b, dirname (some p) = .ok d ∧ basename (some p) = .ok b ∧
    components (d ++ [slash] ++ b) = components p ∧ (absolute (d ++ [slash] ++ b) ↔ absolute p) := by
  rcases path_cases p h0 with h | ⟨c, t, rfl, hc, ht⟩ | ⟨s, c, t, rfl, hs, hne, hc, ht⟩ | ⟨d, s, c, t, rfl, hd, hs, hne, hc, ht⟩
  · by_cases hne : p = []
    · subst hne
      exact ⟨[46], [46], rfl, rfl, by decide, by simp [absolute, slash]⟩
    · refine ⟨_, _, (dirname_special p h hne).1, (basename_special p h hne).1, ?_, ?_⟩
      · rw [components_slashes p h]; decide
      · cases p with
        | nil => exact absurd rfl hne
        | cons x p => simp [absolute, h x (by simp)]
  · refine ⟨_, _, dirname_single c t hc ht, by simpa using basename_component [] c t (.inl rfl) hc ht, ?_, ?_⟩
    · rw [components_mid [46] [slash] c (by simp [Slashes]) (by simp), components_slashes_right c t ht]
      have : components [46] = [] := by decide
      rw [this, List.nil_append]
    · cases c with
      | nil => exact absurd rfl hc.1
      | cons x c => have := (hc.2 x (by simp)).1; simp [absolute, slash] at this ⊢; exact this
  · have hb : basename (some (s ++ c ++ t)) = .ok c := by
      obtain ⟨s', z, rfl⟩ := last_split s hne
      have : z = slash := hs z (by simp)
      subst this
      exact basename_component _ c t (.inr ⟨s', rfl⟩) hc ht
    refine ⟨_, _, dirname_root s c t hs hne hc ht, hb, ?_, ?_⟩
    · rw [components_slashes_right _ t ht, components_slashes_left s c hs,
        components_slashes_left ([slash] ++ [slash]) c (by simp [Slashes])]
    · cases s with
      | nil => exact absurd rfl hne
      | cons x s => simp [absolute, hs x (by simp)]
  · have hb : basename (some (d ++ s ++ c ++ t)) = .ok c := by
      obtain ⟨s', z, rfl⟩ := last_split s hne
      have : z = slash := hs z (by simp)
      subst this
      exact basename_component _ c t (.inr ⟨d ++ s', by simp⟩) hc ht
    refine ⟨_, _, dirname_prefix d s c t hd hs hne hc ht, hb, ?_, ?_⟩
    · rw [components_slashes_right _ t ht, components_mid d s c hs hne,
        components_mid d [slash] c (by simp [Slashes]) (by simp)]
    · obtain ⟨-, e, x, rfl, -⟩ := hd
      cases e <;> simp [absolute]

end Mlibc.Libgen
