import Verif.Base

/-
realpath (options/posix/generic/posix_stdlib.cpp L232-438). Strings are lists of characters without the terminator; the
buffer `lnk` is modelled with its terminators because they matter. What the kernel says about paths (lstat, readlink, getcwd)
is a parameter. The loops need not end (see `cycle_violated`), so the model gets `fuel` and says when it was not enough.
The debug output is not modelled; memory is not exhausted. Property C61.
-/
namespace Mlibc.Realpath
open Mlibc

/-- What `lstat` says about a path: an error, a symbolic link or something else. -/
inductive Kind
  | error (e : Nat)
  | link
  | other

/-- The kernel. -/
structure Kernel where
  stat : List Nat → Kind
  readlink : List Nat → Except Nat (List Nat)

/-- The variables: `resolv` (without its terminator), `lnk` and `ls`. -/
structure St where
  resolv : List Nat
  lnk : List Nat
  ls : Nat

/-- `strrchr(s, '/') - s` -/
def lastSlash (s : List Nat) : Option Nat :=
  if 47 ∈ s then some (s.length - 1 - (s.reverse.takeWhile (· ≠ 47)).length) else none

/-- Removing slashes at the end, not the first character. L347-349 -/
def trimEnd (t : List Nat) : List Nat :=
  match t with
  | [] => []
  | c :: t => c :: (t.reverse.dropWhile (· = 47)).reverse

/-- `process_segment`: an error or the variables afterwards. L282-377 -/
def segment (k : Kernel) (st : St) (seg : List Nat) : Res (Except Nat St) :=
  if seg = [] ∨ seg = [46] then .ok (.ok st)
  else if seg = [46, 46] then
    if st.resolv ≠ [] then
      match lastSlash st.resolv with
      | none => .panic
      | some i => .ok (.ok { st with resolv := st.resolv.take i })
    else .ok (.ok st)
  else
    let full := st.resolv ++ 47 :: seg
    match k.stat full with
    | .error e => .ok (.error e)
    | .other => .ok (.ok { st with resolv := full })
    | .link =>
      match k.readlink full with
      | .error e => .ok (.error e)
      | .ok t =>
        let t := t.take 512
        if t.head? = some 47 then .ok (.ok { st with resolv := trimEnd t })
        else .ok (.ok { st with lnk := t ++ st.lnk.drop st.ls ++ [0], ls := 0 })

/-- The next segment of `lnk`: up to the next slash, otherwise `strlen(lnk.data()) - ls` characters; if that wraps around, using
the segment is undefined. L404-409 -/
def linkSegment (lnk : List Nat) (ls : Nat) : Res (List Nat) :=
  let rest := (lnk.drop ls).takeWhile (· ≠ 0)
  if 47 ∈ rest then .ok (rest.takeWhile (· ≠ 47))
  else
    let len := (lnk.takeWhile (· ≠ 0)).length
    if ls ≤ len then .ok ((lnk.drop ls).take (len - ls)) else .ub

/-- The two loops: segments of `lnk` first, then those of the path. `none`: the fuel was not enough. L382-424 -/
def loop (k : Kernel) : Nat → List Nat → St → Res (Option (Except Nat (List Nat)))
  | 0, _, _ => .ok none
  | fuel + 1, path, st =>
    if st.ls < st.lnk.length then
      (linkSegment st.lnk st.ls).bind fun seg =>
      (segment k { st with ls := st.ls + seg.length + 1 } seg).bind fun
      | .error e => .ok (some (.error e))
      | .ok st => loop k fuel path st
    else if path = [] then .ok (some (.ok st.resolv))
    else
      let seg := path.takeWhile (· ≠ 47)
      (segment k { st with lnk := [], ls := 0 } seg).bind fun
      | .error e => .ok (some (.error e))
      | .ok st => loop k fuel (path.drop (seg.length + 1)) st

/-- PATH_MAX, and ENAMETOOLONG. -/
def pathMax : Nat := 4096
def nameTooLong : Nat := 36

/-- `realpath`; `cwd` is what `getcwd` gives. L232-438 -/
def realpath (k : Kernel) (cwd : List Nat) (fuel : Nat) (path : List Nat) : Res (Option (Except Nat (List Nat))) :=
  (if path.head? = some 47 then loop k fuel (path.drop 1) ⟨[], [], 0⟩
   else loop k fuel path ⟨if cwd = [47] then [] else cwd, [], 0⟩).bind fun
  | some (.ok r) =>
    let r := if r = [] then [47] else r
    .ok (some (if r.length + 1 > pathMax then .error nameTooLong else .ok r))
  | x => .ok x

/-! ## Specification: path resolution -/

/-- The components of a path, separated by slashes. -/
def comps : List Nat → List (List Nat)
  | [] => [[]]
  | c :: p =>
    if c = 47 then [] :: comps p
    else match comps p with
      | [] => [[c]]
      | s :: ss => (c :: s) :: ss

/-- The text of a directory given by its components; the root has none. -/
def text : List (List Nat) → List Nat
  | [] => []
  | c :: d => 47 :: c ++ text d

/-- The same with a slash for the root. -/
def name (d : List (List Nat)) : List Nat := if d = [] then [47] else text d

/-- A component that is a name. -/
abbrev IsName (c : List Nat) : Prop := c ≠ [] ∧ c ≠ [46] ∧ c ≠ [46, 46] ∧ 47 ∉ c ∧ 0 ∉ c

/-- `Resolve k full d inner outer r`: resolving in the directory `d` first the components `inner`, which come from a symbolic link,
then the components `outer` of the path gives `r`, the directory or file reached, or an error.
With `full` these are the rules of POSIX; without, absolute links and links inside links are left out, unless at their ends. -/
inductive Resolve (k : Kernel) (full : Bool) : List (List Nat) → List (List Nat) → List (List Nat) → Except Nat (List (List Nat)) → Prop
  | done {d} : Resolve k full d [] [] (.ok d)
  /-- The link has been followed. -/
  | next {d c outer r} : Resolve k full d [c] outer r → Resolve k full d [] (c :: outer) r
  /-- Empty components and `.` -/
  | skip {d c inner outer r} : c = [] ∨ c = [46] → Resolve k full d inner outer r → Resolve k full d (c :: inner) outer r
  /-- `..` goes up, but not above the root. -/
  | up {d inner outer r} : Resolve k full d.dropLast inner outer r → Resolve k full d ([46, 46] :: inner) outer r
  /-- Something that does not exist or cannot be reached. -/
  | missing {d c inner outer e} : IsName c → k.stat (text (d ++ [c])) = .error e → Resolve k full d (c :: inner) outer (.error e)
  /-- Something that is no symbolic link. -/
  | down {d c inner outer r} : IsName c → k.stat (text (d ++ [c])) = .other → Resolve k full (d ++ [c]) inner outer r →
      Resolve k full d (c :: inner) outer r
  /-- A symbolic link that cannot be read. -/
  | unreadable {d c inner outer e} : IsName c → k.stat (text (d ++ [c])) = .link → k.readlink (text (d ++ [c])) = .error e →
      Resolve k full d (c :: inner) outer (.error e)
  /-- A link with a relative target. -/
  | relative {d c inner outer t r} : IsName c → k.stat (text (d ++ [c])) = .link → k.readlink (text (d ++ [c])) = .ok t →
      0 ∉ t → t.head? ≠ some 47 → full = true ∨ (inner = [] ∧ t.length ≤ 512) →
      Resolve k full d (comps t ++ inner) outer r → Resolve k full d (c :: inner) outer r
  /-- A link with an absolute target. -/
  | absolute {d c inner outer t r} : IsName c → k.stat (text (d ++ [c])) = .link → k.readlink (text (d ++ [c])) = .ok t →
      0 ∉ t → t.head? = some 47 → full = true →
      Resolve k full [] (comps t ++ inner) outer r → Resolve k full d (c :: inner) outer r

/-- A canonical directory or file: its components are names, and neither it nor one of its parents is a symbolic link. -/
def Canonical (k : Kernel) (d : List (List Nat)) : Prop :=
  (∀ c ∈ d, IsName c) ∧ ∀ d' d'', d = d' ++ d'' → d' ≠ [] → k.stat (text d') = .other

/-! ## Proof -/

theorem text_append (d d' : List (List Nat)) : text (d ++ d') = text d ++ text d' := by
  induction d with
  | nil => rfl
  | cons c d ih => simp [text, ih]

theorem text_snoc (d : List (List Nat)) (c : List Nat) : text (d ++ [c]) = text d ++ 47 :: c := by
  rw [text_append]; simp [text]

theorem text_ne_nil {d : List (List Nat)} (h : d ≠ []) : text d ≠ [] := by
  cases d with
  | nil => exact absurd rfl h
  | cons c d => simp [text]

theorem lastSlash_snoc (s c : List Nat) (h : 47 ∉ c) : lastSlash (s ++ 47 :: c) = some s.length := by
  have e : ((s ++ 47 :: c).reverse.takeWhile (· ≠ 47)).length = c.length := by
    have : (s ++ 47 :: c).reverse = c.reverse ++ 47 :: s.reverse := by simp
    rw [this, List.takeWhile_append_of_pos (by
      intro x hx
      have : x ≠ 47 := by rintro rfl; exact h (by simpa using hx)
      simpa using this)]
    simp
  unfold lastSlash
  rw [if_pos (by simp), e]
  simp

/-- The loops' segments of the remaining path. -/
theorem comps_cons (p : List Nat) : comps p = p.takeWhile (· ≠ 47) ::
    (if 47 ∈ p then comps (p.drop ((p.takeWhile (· ≠ 47)).length + 1)) else []) := by
  induction p with
  | nil => rfl
  | cons c p ih =>
    rw [comps]
    by_cases h : c = 47
    · subst h; simp
    · rw [if_neg h, ih]
      have h' : 47 ≠ c := Ne.symm h
      simp [h, h', List.takeWhile_cons]

theorem takeWhile_self {v : List Nat} (h : 47 ∉ v) : v.takeWhile (· ≠ 47) = v := by
  induction v with
  | nil => rfl
  | cons c v ih =>
    simp only [List.mem_cons, not_or] at h
    rw [List.takeWhile_cons, if_pos (by simpa using Ne.symm h.1), ih h.2]

theorem comps_ne_nil (p : List Nat) : comps p ≠ [] := by
  rw [comps_cons]; simp

/-- What is left of `lnk` are the components `inner`. -/
def Rem (st : St) (inner : List (List Nat)) : Prop :=
  (inner = [] ∧ st.lnk.length ≤ st.ls) ∨
  ∃ u v, st.lnk = u ++ v ++ [0] ∧ st.ls = u.length ∧ 0 ∉ u ∧ 0 ∉ v ∧ inner = comps v

/-- What is left of the path are the components `outer`. -/
def Left (path : List Nat) (outer : List (List Nat)) : Prop := outer = comps path ∨ (path = [] ∧ outer = [])

/-- The text of a result. -/
def shown : Except Nat (List (List Nat)) → Except Nat (List Nat)
  | .ok d => .ok (text d)
  | .error e => .error e

/-- What the loops do after a segment. -/
def after (k : Kernel) (fuel : Nat) (path : List Nat) (x : Res (Except Nat St)) : Res (Option (Except Nat (List Nat))) :=
  x.bind fun
  | .error e => .ok (some (.error e))
  | .ok st => loop k fuel path st

/-- The loops come to the result. -/
def Reaches (k : Kernel) (path : List Nat) (st : St) (r : Except Nat (List (List Nat))) : Prop :=
  ∃ N, ∀ fuel, N ≤ fuel → loop k fuel path st = .ok (some (shown r))

def ReachesSeg (k : Kernel) (path : List Nat) (st : St) (c : List Nat) (r : Except Nat (List (List Nat))) : Prop :=
  ∃ N, ∀ fuel, N ≤ fuel → after k fuel path (segment k st c) = .ok (some (shown r))

theorem linkSegment_ok (u v : List Nat) (hu : 0 ∉ u) (hv : 0 ∉ v) : linkSegment (u ++ v ++ [0]) u.length = .ok (v.takeWhile (· ≠ 47)) := by
  have hd : (u ++ v ++ [0]).drop u.length = v ++ [0] := by simp
  have ht : ∀ l : List Nat, 0 ∉ l → (l ++ [0]).takeWhile (· ≠ 0) = l := by
    intro l hl
    rw [List.takeWhile_append_of_pos]
    · simp
    · intro x hx
      have : x ≠ 0 := by rintro rfl; exact hl hx
      simpa using this
  unfold linkSegment
  simp only
  rw [hd, ht v hv, ht (u ++ v) (by simp [hu, hv])]
  split
  · rfl
  · rename_i h
    rw [if_pos (by simp), List.length_append, Nat.add_sub_cancel_left, List.take_left]
    rw [takeWhile_self h]

/-- Taking the next component from `lnk`. -/
theorem bridge (k : Kernel) (path : List Nat) (st : St) (c : List Nat) (rest : List (List Nat)) (r : Except Nat (List (List Nat)))
    (hr : Rem st (c :: rest))
    (h : ∀ st', st'.resolv = st.resolv → Rem st' rest → ReachesSeg k path st' c r) : Reaches k path st r := by
  rcases hr with ⟨h1, _⟩ | ⟨u, v, h1, h2, h3, h4, h5⟩
  · cases h1
  · have hseg := linkSegment_ok u v h3 h4
    rw [comps_cons v] at h5
    injection h5 with hc hrest
    have hrem : Rem { st with ls := st.ls + c.length + 1 } rest := by
      by_cases h47 : 47 ∈ v
      · rw [if_pos h47] at hrest
        refine Or.inr ⟨u ++ c ++ [47], v.drop (c.length + 1), ?_, ?_, ?_, ?_, ?_⟩
        · have hsplit : v = c ++ 47 :: v.drop (c.length + 1) := by
            have e := List.takeWhile_append_dropWhile (p := (· ≠ 47)) (l := v)
            have hd : v.drop c.length = v.dropWhile (· ≠ 47) := by
              conv => lhs; rw [← e, hc]
              rw [← hc, List.drop_left]
            cases hdw : v.dropWhile (· ≠ 47) with
            | nil =>
              exfalso
              rw [hdw, List.append_nil, ← hc] at e
              have : ∀ x ∈ c, x ≠ 47 := by
                intro x hx
                rw [hc] at hx
                have := List.all_takeWhile (p := fun x : Nat => decide (x ≠ 47)) (l := v)
                rw [List.all_eq_true] at this
                simpa using this x hx
              exact this 47 (by rw [e]; exact h47) rfl
            | cons x l =>
              have hx : x = 47 := by
                have := List.head_dropWhile_not (fun x : Nat => decide (x ≠ 47)) (l := v) (by rw [hdw]; simp)
                simp only [hdw, List.head_cons] at this
                simpa using this
              have hd1 : v.drop (c.length + 1) = l := by
                rw [← List.drop_drop, hd, hdw]; rfl
              rw [hd1]
              rw [hdw, ← hc, hx] at e
              exact e.symm
          show st.lnk = _
          rw [h1]
          conv => lhs; rw [hsplit]
          simp
        · show st.ls + c.length + 1 = _
          rw [h2]; simp; omega
        · intro h0
          simp only [List.mem_append, List.mem_singleton] at h0
          rcases h0 with (h0 | h0) | h0
          · exact h3 h0
          · exact h4 (List.takeWhile_subset _ (by rw [← hc]; exact h0))
          · cases h0
        · exact fun h0 => h4 (List.mem_of_mem_drop h0)
        · rw [hrest, hc]
      · rw [if_neg h47] at hrest
        refine Or.inl ⟨hrest, ?_⟩
        show st.lnk.length ≤ st.ls + c.length + 1
        have hcv : c = v := by rw [hc, takeWhile_self h47]
        rw [h1, h2, hcv]
        simp only [List.length_append, List.length_singleton]
        omega
    obtain ⟨N, hN⟩ := h { st with ls := st.ls + c.length + 1 } rfl hrem
    refine ⟨N + 1, fun fuel hf => ?_⟩
    obtain ⟨fuel, rfl⟩ : ∃ f, fuel = f + 1 := ⟨fuel - 1, by omega⟩
    rw [loop, if_pos (by rw [h1, h2]; simp), h1, h2, hseg]
    simp only [Res.bind]
    rw [← hc, ← h1, ← h2]
    exact hN fuel (by omega)

theorem left_cons {path : List Nat} {c : List Nat} {outer : List (List Nat)} (h : Left path (c :: outer)) (hp : path ≠ []) :
    path.takeWhile (· ≠ 47) = c ∧ Left (path.drop (c.length + 1)) outer := by
  rcases h with h | ⟨h, _⟩
  · rw [comps_cons path] at h
    injection h with hc hrest
    refine ⟨hc.symm, ?_⟩
    by_cases h47 : 47 ∈ path
    · rw [if_pos h47, ← hc] at hrest
      exact Or.inl hrest
    · rw [if_neg h47] at hrest
      refine Or.inr ⟨?_, hrest⟩
      have : c = path := by rw [hc, takeWhile_self h47]
      rw [this]
      simp
  · exact absurd h hp

theorem resolve_reaches (k : Kernel) {d inner outer : List (List Nat)} {r : Except Nat (List (List Nat))}
    (h : Resolve k false d inner outer r) :
    (∀ c ∈ d, IsName c) → ∀ path, Left path outer →
    (∀ st, st.resolv = text d → Rem st inner → Reaches k path st r) ∧
    (∀ c rest st, inner = c :: rest → st.resolv = text d → Rem st rest → ReachesSeg k path st c r) := by
  -- the first part follows from the second one when there is a component
  have reduce : ∀ {d : List (List Nat)} {c : List Nat} {rest : List (List Nat)} {path : List Nat} {r : Except Nat (List (List Nat))},
      (∀ st, st.resolv = text d → Rem st rest → ReachesSeg k path st c r) →
      (∀ st, st.resolv = text d → Rem st (c :: rest) → Reaches k path st r) ∧
      (∀ c' rest' st, c :: rest = c' :: rest' → st.resolv = text d → Rem st rest' → ReachesSeg k path st c' r) := by
    intro d c rest path r h
    refine ⟨fun st h1 h2 => bridge k path st c rest r h2 fun st' h3 h4 => h st' (by rw [h3, h1]) h4, ?_⟩
    intro c' rest' st he
    injection he with e1 e2
    subst e1 e2
    exact h st
  induction h with
  | @done d =>
    intro _ path hl
    refine ⟨fun st h1 h2 => ?_, fun c rest st he => by cases he⟩
    have hp : path = [] := by
      rcases hl with h | ⟨h, _⟩
      · exact absurd h.symm (comps_ne_nil path)
      · exact h
    refine ⟨1, fun fuel hf => ?_⟩
    obtain ⟨fuel, rfl⟩ : ∃ f, fuel = f + 1 := ⟨fuel - 1, by omega⟩
    have : ¬ st.ls < st.lnk.length := by
      rcases h2 with ⟨_, h⟩ | ⟨u, v, _, _, _, _, h⟩
      · omega
      · exact absurd h.symm (comps_ne_nil v)
    rw [loop, if_neg this, if_pos hp, h1]
    rfl
  | @next d c outer r h ih =>
    intro hd path hl
    refine ⟨fun st h1 h2 => ?_, fun c rest st he => by cases he⟩
    have : ¬ st.ls < st.lnk.length := by
      rcases h2 with ⟨_, h⟩ | ⟨u, v, _, _, _, _, h⟩
      · omega
      · exact absurd h.symm (comps_ne_nil v)
    by_cases hp : path = []
    · subst hp
      rcases hl with hl | ⟨_, hl⟩
      · simp only [comps, List.cons.injEq] at hl
        obtain ⟨rfl, rfl⟩ := hl
        -- an empty component at the end
        have hres : ∀ {d' : List (List Nat)} {i o : List (List Nat)} {r : Except Nat (List (List Nat))}, Resolve k false d' i o r →
            i = [[]] ∨ i = [] → o = [] → r = .ok d' := by
          intro d' i o r hh
          induction hh with
          | done => intros; rfl
          | next _ _ => intro _ h; cases h
          | @skip d c inner outer r hc _ ih =>
            intro hi ho
            rcases hi with hi | hi
            · injection hi with h1 h2; exact ih (Or.inr h2) ho
            · cases hi
          | up _ _ => intro hi; rcases hi with hi | hi <;> cases hi
          | missing hn _ => intro hi; simp [hn.1] at hi
          | down hn _ _ _ => intro hi; simp [hn.1] at hi
          | unreadable hn _ _ => intro hi; simp [hn.1] at hi
          | relative hn _ _ _ _ _ _ _ => intro hi; simp [hn.1] at hi
          | absolute hn _ _ _ _ _ _ _ => intro hi; simp [hn.1] at hi
        rw [hres h (Or.inl rfl) rfl]
        refine ⟨1, fun fuel hf => ?_⟩
        obtain ⟨fuel, rfl⟩ : ∃ f, fuel = f + 1 := ⟨fuel - 1, by omega⟩
        rw [loop, if_neg this, if_pos rfl, h1]
        rfl
      · cases hl
    · obtain ⟨hc, hl'⟩ := left_cons hl hp
      obtain ⟨N, hN⟩ := (ih hd _ hl').2 c [] { st with lnk := [], ls := 0 } rfl h1 (Or.inl ⟨rfl, by simp⟩)
      refine ⟨N + 1, fun fuel hf => ?_⟩
      obtain ⟨fuel, rfl⟩ : ∃ f, fuel = f + 1 := ⟨fuel - 1, by omega⟩
      rw [loop, if_neg this, if_neg hp]
      simp only
      rw [hc]
      exact hN fuel (by omega)
  | @skip d c inner outer r hc _ ih =>
    intro hd path hl
    refine reduce fun st h1 h2 => ?_
    obtain ⟨N, hN⟩ := (ih hd path hl).1 st h1 h2
    refine ⟨N, fun fuel hf => ?_⟩
    unfold after segment
    rw [if_pos hc]
    exact hN fuel hf
  | @up d inner outer r _ ih =>
    intro hd path hl
    refine reduce fun st h1 h2 => ?_
    obtain ⟨N, hN⟩ := (ih (fun c hc => hd c ((List.dropLast_sublist d).subset hc)) path hl).1 { st with resolv := text d.dropLast } rfl h2
    refine ⟨N, fun fuel hf => ?_⟩
    unfold after segment
    rw [if_neg (by decide), if_pos rfl]
    rcases List.eq_nil_or_concat d with rfl | ⟨d', c, rfl⟩
    · rw [if_neg (by simp [h1, text])]
      have : st = { st with resolv := text ([] : List (List Nat)).dropLast } := by
        cases st; simp only at h1; subst h1; rfl
      rw [this]
      exact hN fuel hf
    · rw [List.concat_eq_append] at h1 hd hN
      rw [List.dropLast_concat] at hN
      have hc := hd c (by simp)
      have e := text_snoc d' c
      rw [if_pos (by rw [h1]; exact text_ne_nil (by simp)), h1, e, lastSlash_snoc _ _ hc.2.2.2.1]
      simp only
      rw [List.take_left]
      exact hN fuel hf
  | @missing d c inner outer e hn hs =>
    intro hd path hl
    refine reduce fun st h1 h2 => ⟨0, fun fuel _ => ?_⟩
    unfold after segment
    rw [if_neg (by simp [hn.1, hn.2.1]), if_neg hn.2.2.1]
    simp only
    rw [h1, ← text_snoc, hs]
    rfl
  | @down d c inner outer r hn hs _ ih =>
    intro hd path hl
    refine reduce fun st h1 h2 => ?_
    obtain ⟨N, hN⟩ := (ih (by
      intro x hx
      rcases List.mem_append.1 hx with hx | hx
      · exact hd x hx
      · rw [List.mem_singleton.1 hx]; exact hn) path hl).1 { st with resolv := text (d ++ [c]) } rfl h2
    refine ⟨N, fun fuel hf => ?_⟩
    unfold after segment
    rw [if_neg (by simp [hn.1, hn.2.1]), if_neg hn.2.2.1]
    simp only
    rw [h1, ← text_snoc, hs]
    exact hN fuel hf
  | @unreadable d c inner outer e hn hs hr =>
    intro hd path hl
    refine reduce fun st h1 h2 => ⟨0, fun fuel _ => ?_⟩
    unfold after segment
    rw [if_neg (by simp [hn.1, hn.2.1]), if_neg hn.2.2.1]
    simp only
    rw [h1, ← text_snoc, hs]
    simp only
    rw [hr]
    rfl
  | @relative d c inner outer t r hn hs hr ht hh hf _ ih =>
    intro hd path hl
    refine reduce fun st h1 h2 => ?_
    rcases hf with hf | ⟨hi, hlen⟩
    · cases hf
    · subst hi
      have hdrop : st.lnk.drop st.ls = [] := by
        rcases h2 with ⟨_, h⟩ | ⟨u, v, _, _, _, _, h⟩
        · exact List.drop_eq_nil_of_le h
        · exact absurd h.symm (comps_ne_nil v)
      obtain ⟨N, hN⟩ := (ih hd path hl).1 { st with lnk := t ++ st.lnk.drop st.ls ++ [0], ls := 0 } h1
        (Or.inr ⟨[], t, by simp [hdrop], rfl, by simp, ht, by simp⟩)
      refine ⟨N, fun fuel hf => ?_⟩
      unfold after segment
      rw [if_neg (by simp [hn.1, hn.2.1]), if_neg hn.2.2.1]
      simp only
      rw [h1, ← text_snoc, hs]
      simp only
      rw [hr]
      simp only
      rw [List.take_of_length_le (l := t) hlen, if_neg hh]
      have := hN fuel hf
      rw [h1] at this
      exact this
  | absolute _ _ _ _ _ hf _ _ => cases hf

/-- What `realpath` shows for a result. -/
def shownName : Except Nat (List (List Nat)) → Except Nat (List Nat)
  | .ok d => if (name d).length < 4096 then .ok (name d) else .error nameTooLong
  | .error e => .error e

theorem text_head (d : List (List Nat)) (h : d ≠ []) : (text d).head? = some 47 := by
  cases d with
  | nil => exact absurd rfl h
  | cons c d => rfl

/-- C61, for resolutions that meet no absolute symbolic link and no symbolic link inside another one unless at its end:
`realpath` gives the name of what the path resolves to, or the error that the resolution meets. -/
theorem realpath_exact_partial (k : Kernel) (cwd : List (List Nat)) (path : List Nat) (r : Except Nat (List (List Nat)))
    (hc : ∀ c ∈ cwd, IsName c)
    (h : Resolve k false (if path.head? = some 47 then [] else cwd) [] (comps path) r) :
    ∃ N, ∀ fuel, N ≤ fuel → realpath k (name cwd) fuel path = .ok (some (shownName r)) := by
  have hcwd : (if name cwd = [47] then [] else name cwd) = text cwd := by
    unfold name
    by_cases h0 : cwd = []
    · simp [h0, text]
    · rw [if_neg h0, if_neg]
      intro he
      cases cwd with
      | nil => exact h0 rfl
      | cons c d =>
        have := (hc c (by simp)).1
        cases c with
        | nil => exact this rfl
        | cons x c => simp [text] at he
  have finish : ∀ (x : Res (Option (Except Nat (List Nat)))), x = .ok (some (shown r)) → (x.bind fun
      | some (.ok r) =>
        let r := if r = [] then [47] else r
        .ok (some (if r.length + 1 > pathMax then .error nameTooLong else .ok r))
      | x => .ok x) = .ok (some (shownName r)) := by
    rintro _ rfl
    cases r with
    | error e => rfl
    | ok d =>
      simp only [shown, Res.bind, shownName, name, pathMax]
      have : text d = [] ↔ d = [] := ⟨fun h => Classical.byContradiction fun h' => text_ne_nil h' h, fun h => by rw [h]; rfl⟩
      by_cases hd : d = []
      · subst hd; rfl
      · simp only [this, hd, if_false]
        by_cases hl : (text d).length < 4096
        · simp only [hl, if_true]
          rw [if_neg (by show ¬ 4096 < _; omega)]
        · simp only [hl, if_false]
          rw [if_pos (by show 4096 < _; omega)]
  by_cases hp : path.head? = some 47
  · rw [if_pos hp] at h
    cases path with
    | nil => cases hp
    | cons x p =>
      simp only [List.head?_cons, Option.some.injEq] at hp
      subst hp
      have h' : Resolve k false [] [] (comps p) r := by
        have e : comps (47 :: p) = [] :: comps p := by simp [comps]
        rw [e] at h
        cases h with
        | next h =>
          cases h with
          | skip _ h => exact h
          | missing hn => exact absurd rfl hn.1
          | down hn => exact absurd rfl hn.1
          | unreadable hn => exact absurd rfl hn.1
          | relative hn => exact absurd rfl hn.1
          | absolute hn => exact absurd rfl hn.1
      obtain ⟨N, hN⟩ := (resolve_reaches k h' (by simp) p (Or.inl rfl)).1 ⟨[], [], 0⟩ rfl (Or.inl ⟨rfl, Nat.le_refl _⟩)
      refine ⟨N, fun fuel hf => ?_⟩
      rw [realpath, if_pos (show (47 :: p).head? = some 47 from rfl)]
      exact finish _ (hN fuel hf)
  · rw [if_neg hp] at h
    obtain ⟨N, hN⟩ := (resolve_reaches k h hc path (Or.inl rfl)).1 ⟨text cwd, [], 0⟩ rfl (Or.inl ⟨rfl, Nat.le_refl _⟩)
    refine ⟨N, fun fuel hf => ?_⟩
    rw [realpath, if_neg hp, hcwd]
    exact finish _ (hN fuel hf)

theorem canonical_nil (k : Kernel) : Canonical k [] := by
  refine ⟨by simp, fun d' d'' h h' => ?_⟩
  exact absurd (List.append_eq_nil_iff.1 h.symm).1 h'

/-- C61: what a resolution reaches is canonical: no `.`, `..` or empty components, no symbolic links. -/
theorem resolve_canonical (k : Kernel) (full : Bool) {d inner outer : List (List Nat)} {r : Except Nat (List (List Nat))}
    (h : Resolve k full d inner outer r) : Canonical k d → ∀ d', r = .ok d' → Canonical k d' := by
  induction h with
  | done => intro h d' hd; injection hd with hd; exact hd ▸ h
  | next _ ih => exact ih
  | skip _ _ ih => exact ih
  | @up d inner outer r _ ih =>
    intro h
    refine ih ⟨fun c hc => h.1 c ((List.dropLast_sublist d).subset hc), fun d' d'' he hne => ?_⟩
    rcases List.eq_nil_or_concat d with rfl | ⟨e, c, rfl⟩
    · exact absurd (List.append_eq_nil_iff.1 he.symm).1 hne
    · rw [List.concat_eq_append, List.dropLast_concat] at he
      exact h.2 d' (d'' ++ [c]) (by rw [List.concat_eq_append, he, List.append_assoc]) hne
  | missing => intro _ d' hd; cases hd
  | @down d c inner outer r hn hs _ ih =>
    intro h
    refine ih ⟨fun x hx => ?_, fun d' d'' he hne => ?_⟩
    · rcases List.mem_append.1 hx with hx | hx
      · exact h.1 x hx
      · rw [List.mem_singleton.1 hx]; exact hn
    · rcases List.eq_nil_or_concat d'' with rfl | ⟨e, x, rfl⟩
      · rw [List.append_nil] at he; exact he ▸ hs
      · rw [List.concat_eq_append, ← List.append_assoc] at he
        exact h.2 d' e (List.append_inj_left' he rfl) hne
  | unreadable => intro _ d' hd; cases hd
  | relative _ _ _ _ _ _ _ ih => exact ih
  | absolute _ _ _ _ _ _ _ ih => intro _; exact ih (canonical_nil k)

/-! ## Examples and disagreements -/

/-- A file system given by its links and its other files; everything else is missing (ENOENT = 2). -/
def fs (links : List (List Nat × List Nat)) (others : List (List Nat)) : Kernel where
  stat p := if (links.lookup p).isSome then .link else if p ∈ others then .other else .error 2
  readlink p := match links.lookup p with | some t => .ok t | none => .error 22

/-- `/a` is a link to `b`, and `/b` and `/b/c` exist: `/a/./c/../c` resolves to `/b/c`. -/
example : Resolve (fs [([47, 97], [98])] [[47, 98], [47, 98, 47, 99]]) false [] []
    (comps [47, 97, 47, 46, 47, 99, 47, 46, 46, 47, 99]) (.ok [[98], [99]]) := by
  have na : IsName [97] := by decide
  have nb : IsName [98] := by decide
  have nc : IsName [99] := by decide
  exact .next (.skip (Or.inl rfl) (.next (.relative (t := [98]) na rfl rfl (by decide) (by decide) (Or.inr ⟨rfl, by decide⟩)
    (.down nb rfl (.next (.skip (Or.inr rfl) (.next (.down nc rfl (.next (.up (.next (.down nc rfl .done))))))))))))

/-- A link to itself: POSIX demands ELOOP, the call never returns. -/
theorem cycle_violated (fuel : Nat) : realpath (fs [([47, 97], [97])] []) [47] fuel [47, 97] = .ok none := by
  have h1 : ∀ fuel, loop (fs [([47, 97], [97])] []) fuel [] ⟨[], [97, 0], 0⟩ = .ok none := by
    intro fuel
    induction fuel with
    | zero => rfl
    | succ fuel ih => rw [loop]; simpa [linkSegment, Res.bind, segment, fs] using ih
  have h2 : loop (fs [([47, 97], [97])] []) fuel [97] ⟨[], [], 0⟩ = .ok none := by
    cases fuel with
    | zero => rfl
    | succ fuel => rw [loop]; simpa [Res.bind, segment, fs] using h1 fuel
  rw [realpath]
  simp [h2, Res.bind]

/-- `/a` is a link to `b/c`, `/b` one to `d`, and `/d/c` exists: `/a` resolves to `/d/c`, but the call looks for `/dc`. -/
theorem nested_violated : realpath (fs [([47, 97], [98, 47, 99]), ([47, 98], [100])] [[47, 100], [47, 100, 47, 99]]) [47] 10 [47, 97] =
      .ok (some (.error 2)) ∧
    Resolve (fs [([47, 97], [98, 47, 99]), ([47, 98], [100])] [[47, 100], [47, 100, 47, 99]]) true [] [] (comps [47, 97])
      (.ok [[100], [99]]) := by
  refine ⟨by rfl, ?_⟩
  exact .next (.skip (Or.inl rfl) (.next (.relative (t := [98, 47, 99]) (by decide) rfl rfl (by decide) (by decide) (Or.inl rfl)
    (.relative (t := [100]) (by decide) rfl rfl (by decide) (by decide) (Or.inl rfl)
      (.down (by decide) rfl (.down (by decide) rfl .done))))))

/-- If `/dc` exists as well, the call runs over its buffers. -/
theorem overrun_violated : realpath (fs [([47, 97], [98, 47, 99]), ([47, 98], [100])] [[47, 100], [47, 100, 47, 99], [47, 100, 99]]) [47] 10 [47, 97] = .ub := by
  rfl

/-- `/a` is a link to `/b/..`, which does not exist: the target is returned as it is. -/
theorem absolute_violated : realpath (fs [([47, 97], [47, 98, 47, 46, 46])] []) [47] 10 [47, 97] =
      .ok (some (.ok [47, 98, 47, 46, 46])) ∧
    Resolve (fs [([47, 97], [47, 98, 47, 46, 46])] []) true [] [] (comps [47, 97]) (.error 2) := by
  refine ⟨by rfl, ?_⟩
  exact .next (.skip (Or.inl rfl) (.next (.absolute (t := [47, 98, 47, 46, 46]) (by decide) rfl rfl (by decide) rfl rfl
    (.skip (Or.inl rfl) (.missing (by decide) rfl)))))

/-- `/a` is a link to `/`: `/a/b` becomes `//b`. -/
theorem root_violated : realpath (fs [([47, 97], [47])] [[47, 98], [47, 47, 98]]) [47] 10 [47, 97, 47, 98] = .ok (some (.ok [47, 47, 98])) ∧
    Resolve (fs [([47, 97], [47])] [[47, 98], [47, 47, 98]]) true [] [] (comps [47, 97, 47, 98]) (.ok [[98]]) := by
  refine ⟨by rfl, ?_⟩
  exact .next (.skip (Or.inl rfl) (.next (.absolute (t := [47]) (by decide) rfl rfl (by decide) rfl rfl
    (.skip (Or.inl rfl) (.skip (Or.inl rfl) (.next (.down (by decide) rfl .done)))))))

/-- The empty path names the working directory; POSIX demands ENOENT. -/
theorem empty_violated (k : Kernel) : realpath k [47] 1 [] = .ok (some (.ok [47])) := rfl

end Mlibc.Realpath
