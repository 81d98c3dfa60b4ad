import Verif.Base

/-!
# Names of shared memory

`shm_mapname`, used by `shm_open` and `shm_unlink`: options/posix/generic/sys-mman.cpp L84-122.
-/

namespace Mlibc.Shm

/-! ## Specification -/

/-- The name without the slashes at its start. -/
inductive Stripped : List Nat → List Nat → Prop
  | here {s} : s.head? ≠ some 47 → Stripped s s
  | slash {s t} : Stripped s t → Stripped (47 :: s) t

/-- A name of one file in a directory: not empty, no slash in it, not `.` or `..`. -/
def FileName (t : List Nat) : Prop := t ≠ [] ∧ 47 ∉ t ∧ t ≠ [46] ∧ t ≠ [46, 46]

/-- A path given to the kernel, or -1 and errno; EINVAL is 22, ENAMETOOLONG is 36. -/
inductive Mapped
  | path (p : List Nat)
  | err (e : Nat)
deriving DecidableEq, Repr

/-! ## The code -/

/-- sys-mman.cpp L88-89: skips slashes; the list is what is in memory from the start of the name on. -/
def skip : List Nat → Res (List Nat)
  | [] => .ub
  | c :: m => if c = 47 then skip m else .ok (c :: m)

/-- options/ansi/generic/string.cpp `strchrnul`: the number of characters before the first `c` or the end. -/
def strchrnul (c : Nat) : List Nat → Res Nat
  | [] => .ub
  | d :: m => if d = c ∨ d = 0 then .ok 0 else (strchrnul c m).bind fun n => .ok (n + 1)

/-- `p[i]` -/
def rd (m : List Nat) (i : Nat) : Res Nat := match m[i]? with | some c => .ok c | none => .ub

/-- sys-mman.cpp L85-103 with a buffer of `cap` bytes; NAME_MAX is 255.  Gives the bytes stored. -/
def mapname (cap : Nat) (m : List Nat) : Res (Except Nat (List Nat)) :=
  (skip m).bind fun name =>                                                       -- L88-89
  (strchrnul 47 name).bind fun p =>                                               -- L90
  (rd name p).bind fun stop =>
  if stop ≠ 0 ∨ p = 0 then .ok (.error 22)                                        -- L90
  else
    (rd name 0).bind fun first =>
    (rd name (p - 1)).bind fun last =>
    if p ≤ 2 ∧ first = 46 ∧ last = 46 then .ok (.error 22)                        -- L91-93
    else if p > 255 then .ok (.error 36)                                          -- L95-98
    else if cap < 9 + (p + 1) then .ub                                            -- L99-100
    else .ok (.ok ([47, 100, 101, 118, 47, 115, 104, 109, 47] ++ name.take (p + 1)))

/-- The string in the buffer. -/
def cstr (m : List Nat) : List Nat := m.takeWhile (· != 0)

/-- sys-mman.cpp L106-122, the path given to `open` or `unlink`; the buffer has NAME_MAX + 10 bytes. -/
def shmPath (m : List Nat) : Res Mapped :=
  (mapname (255 + 10) m).bind fun r => match r with
    | .error e => .ok (.err e)
    | .ok buf => .ok (.path (cstr buf))

/-! ## Proofs -/

theorem bok {α β : Type} (a : α) (f : α → Res β) : (Res.ok a).bind f = f a := rfl

theorem skip_eq {s t : List Nat} (h : Stripped s t) (rest : List Nat) : skip (s ++ 0 :: rest) = .ok (t ++ 0 :: rest) := by
  induction h with
  | @here s hs =>
    cases s with
    | nil => rfl
    | cons c s =>
      have : c ≠ 47 := fun e => hs (by simp [e])
      simp [skip, this]
  | slash _ ih => simpa [skip] using ih

theorem strchrnul_eq (a : List Nat) (h1 : 47 ∉ a) (h2 : 0 ∉ a) (c : Nat) (hc : c = 47 ∨ c = 0) (rest : List Nat) :
    strchrnul 47 (a ++ c :: rest) = .ok a.length := by
  induction a with
  | nil => simp [strchrnul, hc]
  | cons d a ih =>
    simp at h1 h2
    have hd : ¬ (d = 47 ∨ d = 0) := by
      rintro (e | e)
      · exact h1.1 e.symm
      · exact h2.1 e.symm
    simp only [List.cons_append, strchrnul, if_neg hd, ih h1.2 h2.2, bok, List.length_cons]

theorem split_slash (t : List Nat) (h : 47 ∈ t) : ∃ a b, t = a ++ 47 :: b ∧ 47 ∉ a := by
  induction t with
  | nil => cases h
  | cons c t ih =>
    by_cases hc : c = 47
    · exact ⟨[], t, by simp [hc], by simp⟩
    · have : 47 ∈ t := by simp at h; rcases h with h | h; exact absurd h.symm hc; exact h
      obtain ⟨a, b, h1, h2⟩ := ih this
      exact ⟨c :: a, b, by simp [h1], by simp [h2]; omega⟩

theorem stripped_mem {s t : List Nat} (h : Stripped s t) : ∀ c, c ∈ t → c ∈ s := by
  induction h with
  | here _ => exact fun c h => h
  | slash _ ih => exact fun c h => List.mem_cons_of_mem _ (ih c h)

theorem stripped_exists (s : List Nat) : ∃ t, Stripped s t := by
  induction s with
  | nil => exact ⟨[], .here (by simp)⟩
  | cons c s ih =>
    by_cases hc : c = 47
    · subst hc; obtain ⟨t, h⟩ := ih; exact ⟨t, .slash h⟩
    · exact ⟨c :: s, .here (by simp [hc])⟩

theorem cstr_eq (t rest : List Nat) (h : 0 ∉ t) : cstr (t ++ 0 :: rest) = t := by
  induction t with
  | nil => simp [cstr]
  | cons a t ih =>
    simp at h
    have ha : a ≠ 0 := fun e => h.1 e.symm
    have := ih h.2
    unfold cstr at this ⊢
    simp [ha, this]

/-! ## Theorems -/

/-- The path of a name. -/
theorem mapname_eq (s t rest : List Nat) (h0 : 0 ∉ s) (hs : Stripped s t) :
    mapname (255 + 10) (s ++ 0 :: rest) = if ¬ (t ≠ [] ∧ 47 ∉ t ∧ t ≠ [46] ∧ t ≠ [46, 46]) then .ok (.error 22)
      else if t.length > 255 then .ok (.error 36)
      else .ok (.ok ([47, 100, 101, 118, 47, 115, 104, 109, 47] ++ (t ++ [0]))) := by
  have ht : 0 ∉ t := fun x => h0 (stripped_mem hs 0 x)
  unfold mapname
  rw [skip_eq hs, bok]
  by_cases hsl : 47 ∈ t
  · obtain ⟨a, b, e, ha⟩ := split_slash t hsl
    have ha0 : 0 ∉ a := fun x => ht (by rw [e]; simp [x])
    rw [if_pos (by simp [hsl])]
    rw [show t ++ 0 :: rest = a ++ 47 :: (b ++ 0 :: rest) by rw [e]; simp]
    rw [strchrnul_eq a ha ha0 47 (Or.inl rfl), bok]
    simp [rd, bok]
  · rw [strchrnul_eq t hsl ht 0 (Or.inr rfl), bok]
    have r0 : rd (t ++ 0 :: rest) t.length = .ok 0 := by simp [rd]
    rw [r0, bok]
    cases t with
    | nil => simp
    | cons c t =>
      rw [if_neg (by simp)]
      have r1 : rd ((c :: t) ++ 0 :: rest) 0 = .ok c := by simp [rd]
      obtain ⟨init, l, hl⟩ : ∃ init l, c :: t = init ++ [l] := ⟨_, _, (List.dropLast_concat_getLast (List.cons_ne_nil c t)).symm⟩
      have r2 : rd ((c :: t) ++ 0 :: rest) ((c :: t).length - 1) = .ok l := by
        rw [hl]; simp [rd]
      rw [r1, bok, r2, bok]
      have dots : ((c :: t).length ≤ 2 ∧ c = 46 ∧ l = 46) ↔ ((c :: t) = [46] ∨ (c :: t) = [46, 46]) := by
        constructor
        · rintro ⟨h1, h2, h3⟩
          subst h2 h3
          match t, hl with
          | [], _ => exact Or.inl rfl
          | [d], hl =>
            have : init = [46] ∧ d = 46 := by
              match init, hl with
              | [], hl => simp at hl
              | [x], hl => simp at hl; exact ⟨by simp [hl.1], hl.2⟩
              | x :: y :: z, hl => simp at hl
            exact Or.inr (by simp [this.2])
          | d :: e :: f, _ => simp at h1
        · rintro (e | e)
          · rw [e] at hl
            simp at e
            match init, hl with
            | [], hl => simp at hl; exact ⟨by simp [e.2], e.1, hl.symm⟩
            | x :: y, hl => simp at hl
          · rw [e] at hl
            simp at e
            match init, hl with
            | [x], hl => simp at hl; exact ⟨by simp [e.2], e.1, hl.2.symm⟩
            | [], hl => simp at hl
            | x :: y :: z, hl => simp at hl
      by_cases hd : (c :: t).length ≤ 2 ∧ c = 46 ∧ l = 46
      · rw [if_pos hd, if_pos]
        rcases dots.1 hd with e | e <;> simp [e]
      · have nd : ¬ ((c :: t) = [46] ∨ (c :: t) = [46, 46]) := fun x => hd (dots.2 x)
        have nn : ¬ ¬ (c :: t ≠ [] ∧ 47 ∉ c :: t ∧ c :: t ≠ [46] ∧ c :: t ≠ [46, 46]) :=
          fun x => x ⟨by simp, hsl, fun e => nd (Or.inl e), fun e => nd (Or.inr e)⟩
        rw [if_neg hd, if_neg nn]
        by_cases hlen : (c :: t).length > 255
        · rw [if_pos hlen, if_pos hlen]
        · rw [if_neg hlen, if_neg (by omega), if_neg hlen]
          congr 3
          rw [show (c :: t) ++ 0 :: rest = ((c :: t) ++ [0]) ++ rest by simp, List.take_append_of_le_length (by simp),
            List.take_of_length_le (by simp)]

/-- **C126.** For every name, whatever is behind it in memory, nothing outside the buffer is written and nothing behind the name is
    read.  Slashes at the start do not count.  If the rest is the name of a file, of at most 255 characters, the path is that
    file in /dev/shm; if it is longer, the error is ENAMETOOLONG; if it is no name of a file, EINVAL. -/
theorem shm_path (s t rest : List Nat) (h0 : 0 ∉ s) (hs : Stripped s t) :
    (FileName t ∧ t.length ≤ 255 →
      shmPath (s ++ 0 :: rest) = .ok (.path ([47, 100, 101, 118, 47, 115, 104, 109, 47] ++ t))) ∧
    (FileName t ∧ 255 < t.length → shmPath (s ++ 0 :: rest) = .ok (.err 36)) ∧
    (¬ FileName t → shmPath (s ++ 0 :: rest) = .ok (.err 22)) := by
  have ht : 0 ∉ t := fun x => h0 (stripped_mem hs 0 x)
  unfold shmPath FileName
  rw [mapname_eq s t rest h0 hs]
  refine ⟨fun ⟨h1, h2⟩ => ?_, fun ⟨h1, h2⟩ => ?_, fun h1 => ?_⟩
  · rw [if_neg (fun x => x h1), if_neg (by omega), bok]
    have := cstr_eq ([47, 100, 101, 118, 47, 115, 104, 109, 47] ++ t) [] (by simp [ht])
    simp only [List.append_assoc] at this ⊢
    rw [this]
  · rw [if_neg (fun x => x h1), if_pos h2, bok]
  · rw [if_pos h1, bok]

/-- **C126** (never another directory). Every path given to the kernel is that of a file in /dev/shm itself. -/
theorem shm_inside (s rest p : List Nat) (h0 : 0 ∉ s) (h : shmPath (s ++ 0 :: rest) = .ok (.path p)) :
    ∃ t, p = [47, 100, 101, 118, 47, 115, 104, 109, 47] ++ t ∧ FileName t ∧ t.length ≤ 255 := by
  obtain ⟨t, hs⟩ := stripped_exists s
  obtain ⟨h1, h2, h3⟩ := shm_path s t rest h0 hs
  by_cases hf : FileName t
  · by_cases hl : t.length ≤ 255
    · rw [h1 ⟨hf, hl⟩] at h
      injection h with h
      injection h with h
      exact ⟨t, h.symm, hf, hl⟩
    · rw [h2 ⟨hf, by omega⟩] at h; simp at h
  · rw [h3 hf] at h; simp at h

/-- `//a`, `..` and `/` -/
example : Stripped [47, 47, 97] [97] ∧ FileName [97] ∧ shmPath [47, 47, 97, 0] = .ok (.path [47, 100, 101, 118, 47, 115, 104, 109, 47, 97]) ∧
    shmPath [46, 46, 0] = .ok (.err 22) ∧ shmPath [47, 0] = .ok (.err 22) := by
  refine ⟨.slash (.slash (.here (by simp))), by simp [FileName], by decide, by decide, by decide⟩

end Mlibc.Shm
