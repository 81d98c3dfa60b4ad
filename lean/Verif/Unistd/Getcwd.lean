import Verif.Base

/-
getcwd where the system has no such call (options/posix/generic/unistd.cpp L295-441): the path is found by going up to the
root and looking at the entries of every directory. Directories are identified by device and inode number, here one number.
`malloc` and `fdopendir` are taken to succeed. Property C75.
-/
namespace Mlibc.Getcwd
open Mlibc

/-! ## Model -/

/-- What the calls find: the root, the directory above (openat with "..", then fstat), and the entries of a directory with what lstat
says about them; `error` is the errno of a call that fails. -/
structure Fs where
  root : Nat
  parent : Nat → Except Nat Nat
  entries : Nat → List (List Nat × Except Nat Nat)

/-- A path, or a null pointer with this errno (`none`: errno is not set). -/
inductive Out where
  | path (p : List Nat)
  | null (errno : Option Nat)
  deriving DecidableEq, Repr

/-- Looking for the entry that is the directory `cur`. L386-416 -/
def find (cur : Nat) : List (List Nat × Except Nat Nat) → Except (Option Nat) (List Nat)
  | [] => .error none
  | (n, st) :: es =>
    if n = [46] ∨ n = [46, 46] then find cur es
    else match st with
      | .error e => .error (some e)
      | .ok id => if id = cur then .ok n else find cur es

/-- The loop over the directories above. `text` is what stands in the buffer from position `bufptr` on (without the final zero). The
unsigned `bufptr` wraps around if a slash does not fit any more: the store at `buffer[-1]` is undefined. L351-433 -/
def loop (fs : Fs) : Nat → Nat → Nat → List Nat → Res Out
  | 0, _, _, _ => .ub
  | fuel + 1, cur, bufptr, text =>
    match fs.parent cur with
    | .error e => .ok (.null (some e))
    | .ok par =>
      match find cur (fs.entries par) with
      | .error e => .ok (.null e)
      | .ok name =>
        if name.length + 1 > bufptr + 1 then .ok (.null (some 34))
        else if name.length = bufptr then .ub
        else if par = fs.root then .ok (.path (47 :: name ++ text))
        else loop fs fuel par (bufptr - name.length - 1) (47 :: name ++ text)

/-- `getcwd`; `buffer`: whether one is given. Every round takes at least one place, so `size` rounds are enough. L295-441 -/
def getcwd (fs : Fs) (cwd : Nat) (buffer : Bool) (size : Nat) : Res Out :=
  if buffer = true ∧ size = 0 then .ok (.null (some 22))
  else
    let size := if size = 0 then 4096 else size
    if cwd = fs.root then (if size < 2 then .ok (.null (some 34)) else .ok (.path [47]))
    else loop fs size cwd (size - 1) []

/-! ## Specification -/
namespace Spec

/-- Walking from a directory along these names ends in `to`. -/
inductive Leads (fs : Fs) : Nat → List (List Nat) → Nat → Prop where
  | here (d) : Leads fs d [] d
  | step {d n d' ns to} : (n, Except.ok d') ∈ fs.entries d → Leads fs d' ns to → Leads fs d (n :: ns) to

/-- The text of an absolute path. -/
def absolute (ns : List (List Nat)) : List Nat := if ns = [] then [47] else ns.flatMap (fun n => 47 :: n)

/-- A directory that can be reached and looked at: from it up to the root, every directory above can be opened, everything in it can
be stat'ed, and it has an entry for the one below. -/
inductive Reachable (fs : Fs) : Nat → Prop where
  | root : Reachable fs fs.root
  | under {d p n} : d ≠ fs.root → fs.parent d = .ok p → (∀ e ∈ fs.entries p, ∃ id, e.2 = .ok id) → n ≠ [46] → n ≠ [46, 46] →
      (n, Except.ok d) ∈ fs.entries p → Reachable fs p → Reachable fs d

end Spec
open Spec

/-! ## Proof -/

theorem Spec.Leads.append {fs : Fs} {a b c : Nat} {ns : List (List Nat)} {n : List Nat} (h : Leads fs a ns b) (hn : (n, Except.ok c) ∈ fs.entries b) :
    Leads fs a (ns ++ [n]) c := by
  induction h with
  | here d => exact .step hn (.here _)
  | step h1 _ ih => exact .step h1 (ih hn)

theorem find_spec (cur : Nat) (es : List (List Nat × Except Nat Nat)) (hok : ∀ e ∈ es, ∃ id, e.2 = .ok id) (n : List Nat) (h1 : n ≠ [46]) (h2 : n ≠ [46, 46])
    (hn : (n, Except.ok cur) ∈ es) : ∃ m, find cur es = .ok m ∧ (m, Except.ok cur) ∈ es := by
  induction es with
  | nil => cases hn
  | cons e es ih =>
    obtain ⟨m, st⟩ := e
    obtain ⟨id, hid⟩ := hok (m, st) (by simp)
    simp only at hid
    subst hid
    have hrest : (n, Except.ok cur) ∈ es → ∃ m', find cur es = .ok m' ∧ (m', Except.ok cur) ∈ (m, Except.ok id) :: es := by
      intro h
      obtain ⟨m', h1, h2⟩ := ih (fun e he => hok e (by simp [he])) h
      exact ⟨m', h1, by simp [h2]⟩
    simp only [find]
    by_cases hdot : m = [46] ∨ m = [46, 46]
    · rw [if_pos hdot]
      rcases List.mem_cons.1 hn with h | h
      · injection h with h _
        subst h
        rcases hdot with h | h
        · exact absurd h h1
        · exact absurd h h2
      · exact hrest h
    · rw [if_neg hdot]
      by_cases hid : id = cur
      · rw [if_pos hid]
        exact ⟨m, rfl, by simp [hid]⟩
      · rw [if_neg hid]
        rcases List.mem_cons.1 hn with h | h
        · injection h with _ h
          injection h with h
          exact absurd h.symm hid
        · exact hrest h

open Classical in
theorem loop_spec (fs : Fs) (d : Nat) (h : Reachable fs d) (hd : d ≠ fs.root) :
    ∃ ns, ns ≠ [] ∧ Leads fs fs.root ns d ∧ ∀ fuel bufptr text, bufptr < fuel →
      loop fs fuel d bufptr text =
        if (absolute ns).length ≤ bufptr then .ok (.path (absolute ns ++ text))
        else if ∃ s, s ≠ [] ∧ s <:+ ns ∧ (absolute s).length = bufptr + 1 then .ub
        else .ok (.null (some 34)) := by
  induction h with
  | root => exact absurd rfl hd
  | @under d p n hne hp hall hn1 hn2 hmem hreach ih =>
    obtain ⟨m, hm, hmem'⟩ := find_spec d (fs.entries p) hall n hn1 hn2 hmem
    have habs : ∀ ns : List (List Nat), ns ≠ [] → absolute ns = ns.flatMap (fun n => 47 :: n) := by
      intro ns h; unfold absolute; rw [if_neg h]
    have hlast : ∀ ns : List (List Nat), absolute (ns ++ [m]) = ns.flatMap (fun n => 47 :: n) ++ 47 :: m := by
      intro ns
      rw [habs _ (by simp)]
      simp
    have hsuf : ∀ (ns s : List (List Nat)), s ≠ [] → (s <:+ ns ++ [m] ↔ ∃ t, s = t ++ [m] ∧ t <:+ ns) := by
      intro ns s hs
      constructor
      · rintro ⟨u, hu⟩
        rcases List.eq_nil_or_concat s with rfl | ⟨t, x, rfl⟩
        · exact absurd rfl hs
        · rw [List.concat_eq_append, ← List.append_assoc] at hu
          obtain ⟨h1, h2⟩ := List.append_inj' hu rfl
          injection h2 with h2
          exact ⟨t, by rw [List.concat_eq_append, h2], u, h1⟩
      · rintro ⟨t, rfl, u, hu⟩
        exact ⟨u, by rw [← hu]; simp⟩
    by_cases hroot : p = fs.root
    · refine ⟨[m], by simp, .step (hroot ▸ hmem') (.here _), ?_⟩
      intro fuel bufptr text hf
      match fuel, hf with
      | fuel + 1, hf =>
        simp only [loop]
        rw [hp]
        simp only []
        rw [hm]
        simp only []
        have hl : (absolute [m]).length = m.length + 1 := by rw [habs _ (by simp)]; simp
        rw [hl]
        by_cases h1 : m.length + 1 ≤ bufptr
        · rw [if_neg (by omega), if_neg (by omega), if_pos hroot, if_pos h1, habs _ (by simp)]
          simp
        · rw [if_neg h1]
          by_cases h2 : m.length = bufptr
          · rw [if_neg (by omega), if_pos h2, if_pos ⟨[m], by simp, List.suffix_refl _, by rw [hl, h2]⟩]
          · rw [if_pos (by omega), if_neg]
            rintro ⟨s, hs, hsuf', hlen⟩
            obtain ⟨t, rfl, ht⟩ := (hsuf [] s hs).1 hsuf'
            have : t = [] := List.suffix_nil.1 ht
            subst this
            rw [List.nil_append, hl] at hlen
            omega
    · obtain ⟨ns, hns, hleads, hloop⟩ := ih hroot
      refine ⟨ns ++ [m], by simp, hleads.append hmem', ?_⟩
      intro fuel bufptr text hf
      match fuel, hf with
      | fuel + 1, hf =>
        simp only [loop]
        rw [hp]
        simp only []
        rw [hm]
        simp only []
        have hl : (absolute (ns ++ [m])).length = (absolute ns).length + (m.length + 1) := by rw [hlast, habs _ hns]; simp
        have hpos : 1 ≤ (absolute ns).length := by
          rw [habs _ hns]
          obtain ⟨x, t, rfl⟩ := List.exists_cons_of_ne_nil hns
          simp
        rw [hl]
        by_cases h1 : m.length + 1 > bufptr + 1
        · rw [if_pos h1, if_neg (by omega), if_neg]
          rintro ⟨s, hs, hsuf', hlen⟩
          obtain ⟨t, rfl, ht⟩ := (hsuf ns s hs).1 hsuf'
          rw [hlast] at hlen
          simp only [List.length_append, List.length_cons] at hlen
          omega
        · rw [if_neg h1]
          by_cases h2 : m.length = bufptr
          · rw [if_pos h2, if_neg (by omega), if_pos]
            refine ⟨[m], by simp, ⟨ns, rfl⟩, ?_⟩
            rw [habs _ (by simp)]
            simp [h2]
          · rw [if_neg h2, if_neg hroot, hloop fuel (bufptr - m.length - 1) (47 :: m ++ text) (by omega)]
            by_cases h3 : (absolute ns).length + (m.length + 1) ≤ bufptr
            · rw [if_pos (by omega), if_pos h3, hlast, habs _ hns]
              simp
            · rw [if_neg (by omega), if_neg h3]
              have hiff : (∃ s, s ≠ [] ∧ s <:+ ns ∧ (absolute s).length = bufptr - m.length - 1 + 1) ↔
                  (∃ s, s ≠ [] ∧ s <:+ ns ++ [m] ∧ (absolute s).length = bufptr + 1) := by
                constructor
                · rintro ⟨s, hs, hs', hlen⟩
                  refine ⟨s ++ [m], by simp, (hsuf ns _ (by simp)).2 ⟨s, rfl, hs'⟩, ?_⟩
                  rw [hlast, ← habs _ hs, List.length_append, hlen]
                  simp only [List.length_cons]
                  omega
                · rintro ⟨s, hs, hs', hlen⟩
                  obtain ⟨t, rfl, ht⟩ := (hsuf ns s hs).1 hs'
                  rw [hlast] at hlen
                  simp only [List.length_append, List.length_cons] at hlen
                  by_cases ht0 : t = []
                  · subst ht0
                    simp at hlen
                    exact absurd hlen h2
                  · exact ⟨t, ht0, ht, by rw [habs _ ht0]; omega⟩
              simp only [hiff]

/-! ## C75 -/

/-- getcwd returns a path that leads from the root to the current directory. If the buffer does not hold it the error is ERANGE.
Partial: unless the end of the path from some slash on is exactly as long as the buffer; see `boundary_violated`. -/
theorem getcwd_partial (fs : Fs) (cwd : Nat) (h : Reachable fs cwd) : ∃ ns, Leads fs fs.root ns cwd ∧
    ∀ size, 0 < size →
      ((absolute ns).length < size → getcwd fs cwd true size = .ok (.path (absolute ns))) ∧
      (size ≤ (absolute ns).length → (∀ s, s ≠ [] → s <:+ ns → (absolute s).length ≠ size) → getcwd fs cwd true size = .ok (.null (some 34))) := by
  by_cases hr : cwd = fs.root
  · subst hr
    refine ⟨[], .here _, fun size hs => ⟨fun h => ?_, fun h _ => ?_⟩⟩
    all_goals
      have hl : (absolute []).length = 1 := rfl
      rw [hl] at h
      unfold getcwd
      rw [if_neg (by omega)]
      simp only []
      rw [if_neg (show ¬ size = 0 by omega), if_pos trivial]
    · rw [if_neg (by omega)]; rfl
    · rw [if_pos (by omega)]
  · obtain ⟨ns, hns, hl, hloop⟩ := loop_spec fs cwd h hr
    refine ⟨ns, hl, fun size hs => ?_⟩
    have hg : getcwd fs cwd true size = loop fs size cwd (size - 1) [] := by
      unfold getcwd
      rw [if_neg (by omega)]
      simp only []
      rw [if_neg (show ¬ size = 0 by omega), if_neg hr]
    rw [hg, hloop size (size - 1) [] (by omega)]
    refine ⟨fun h => ?_, fun h hno => ?_⟩
    · rw [if_pos (by omega), List.append_nil]
    · rw [if_neg (by omega), if_neg]
      rintro ⟨s, h1, h2, h3⟩
      exact hno s h1 h2 (by omega)

/-- Without a buffer and a size, the same with PATH_MAX bytes. -/
theorem getcwd_allocates (fs : Fs) (cwd : Nat) : getcwd fs cwd false 0 = getcwd fs cwd true 4096 ∧
    ∀ size, 0 < size → getcwd fs cwd false size = getcwd fs cwd true size := by
  refine ⟨rfl, fun size h => ?_⟩
  unfold getcwd
  rw [if_neg (by simp), if_neg (show ¬ (true = true ∧ size = 0) by omega)]

/-- A size of 0 is EINVAL. -/
theorem getcwd_no_size (fs : Fs) (cwd : Nat) : getcwd fs cwd true 0 = .ok (.null (some 22)) := rfl

/-! ### Examples and where the code differs -/

def txt (s : String) : List Nat := s.toList.map Char.toNat

/-- /home (2) with ann (3) and bob (4). -/
def sample : Fs where
  root := 1
  parent := fun d => .ok (if d = 3 ∨ d = 4 then 2 else 1)
  entries := fun d =>
    if d = 1 then [(txt ".", .ok 1), (txt "..", .ok 1), (txt "home", .ok 2)]
    else if d = 2 then [(txt ".", .ok 2), (txt "..", .ok 1), (txt "bob", .ok 4), (txt "ann", .ok 3)] else []

theorem sample_reachable : Reachable sample 3 := by
  refine .under (p := 2) (n := txt "ann") (by decide) rfl ?_ (by decide +kernel) (by decide +kernel) (by simp [sample]) ?_
  · intro e he; simp [sample] at he; rcases he with rfl | rfl | rfl | rfl <;> exact ⟨_, rfl⟩
  · refine .under (p := 1) (n := txt "home") (by decide) rfl ?_ (by decide +kernel) (by decide +kernel) (by simp [sample]) .root
    intro e he; simp [sample] at he; rcases he with rfl | rfl | rfl <;> exact ⟨_, rfl⟩

example : getcwd sample 3 true 10 = .ok (.path (txt "/home/ann")) := by decide +kernel
example : getcwd sample 3 true 8 = .ok (.null (some 34)) := by decide +kernel
example : ∃ ns, Leads sample 1 ns 3 := (getcwd_partial sample 3 sample_reachable).imp fun _ h => h.1

/-- With a buffer of exactly the length of the path (one byte too few), or of the end of the path from a slash on, the code writes
before the beginning of the buffer. -/
theorem boundary_violated : getcwd sample 3 true 9 = .ub ∧ getcwd sample 3 true 4 = .ub := by decide +kernel

end Mlibc.Getcwd
