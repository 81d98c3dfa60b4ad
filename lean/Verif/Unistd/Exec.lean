import Verif.Base

/-
The exec family (options/posix/generic/unistd.cpp L88-220, L1350-1364): the search along PATH and the passing of arguments. The
system call is a function from the path to `none` (the new program runs) or the error. `sys_execve` is taken to exist. Property C74.
-/
namespace Mlibc.Exec
open Mlibc

/-! ## Model -/

/-- How a call of the exec family ends: the new program has been started from this path, or -1 with this errno. -/
inductive Out where
  | runs (path : List Nat)
  | fails (errno : Nat)
  deriving DecidableEq, Repr

abbrev Kernel := List Nat → Option Nat

/-- `sys_execve(path)` and the check that it did not return success. L170-171, L1360-1361 -/
def sysExec (exec : Kernel) (path : List Nat) : Res Out :=
  match exec path with
  | none => .ok (.runs path)
  | some 0 => .panic
  | some e => .ok (.fails e)

/-- The loop of `execvpe`. `dirs` is the text from position `p` on; `res` the error to be reported in the end (ENOENT 2, EACCES 13,
ENOTDIR 20). L185-219 -/
def searchLoop (exec : Kernel) (file : List Nat) : Nat → List Nat → Nat → Res Out
  | 0, _, res => .ok (.fails res)
  | fuel + 1, dirs, res =>
    if dirs = [] then .ok (.fails res)
    else
      let dir := dirs.takeWhile (· ≠ 58)
      let rest := dirs.drop (dir.length + 1)
      (sysExec exec (dir ++ [47] ++ file)).bind fun
        | .runs p => .ok (.runs p)
        | .fails e =>
          if e = 2 ∨ e = 20 then searchLoop exec file fuel rest res
          else if e = 13 then searchLoop exec file fuel rest 13
          else .ok (.fails e)

/-- `execvpe`; `path` is the value of PATH. L157-220 -/
def execvpe (exec : Kernel) (path : Option (List Nat)) (file : List Nat) : Res Out :=
  if 47 ∈ file then sysExec exec file
  else
    let dirs := match path with
      | some p => p
      | none => [47, 98, 105, 110, 58, 47, 117, 115, 114, 47, 98, 105, 110]
    searchLoop exec file (dirs.length + 1) dirs 2

/-! Arguments. A variable argument is a pointer; `none` is the null pointer. Reading more arguments than there are is `ub`. -/

/-- The arguments of `execl` behind `arg0`: at most 14 altogether, with the null pointer. L88-104 -/
def execlLoop : List (Option Nat) → Nat → List (Option Nat) → Res (List (Option Nat))
  | [], n, _ => if n < 15 then .ub else .panic
  | a :: args, n, argv =>
    if n < 15 then (if a = none then .ok (argv ++ [a]) else execlLoop args (n + 1) (argv ++ [a])) else .panic

/-- `execl`: the vector given to execve, up to the null pointer. L88-107 -/
def execl (arg0 : Option Nat) (va : List (Option Nat)) : Res (List (Option Nat)) := execlLoop va 1 [arg0]

/-- `for(argc = 1; va_arg(ap, const char *); argc++);` L114, L134 -/
def countArgs : List (Option Nat) → Nat → Res Nat
  | [], _ => .ub
  | none :: _, argc => .ok argc
  | some _ :: args, argc => countArgs args (argc + 1)

/-- Reading `n` variable arguments. -/
def take : Nat → List (Option Nat) → Res (List (Option Nat) × List (Option Nat))
  | 0, va => .ok ([], va)
  | _ + 1, [] => .ub
  | n + 1, a :: va => (take n va).bind fun r => .ok (a :: r.1, r.2)

/-- `execle`: the argument vector and the environment given to execve. L110-127 -/
def execle (arg0 : Option Nat) (va : List (Option Nat)) : Res (List (Option Nat) × Option Nat) :=
  (countArgs va 1).bind fun argc => (take argc va).bind fun r => (take 1 r.2).bind fun e => .ok (arg0 :: r.1, e.1.head?.join)

/-- `execlp`: the argument vector given to execvp. L130-147 -/
def execlp (arg0 : Option Nat) (va : List (Option Nat)) : Res (List (Option Nat)) :=
  (countArgs va 1).bind fun argc => (take (argc - 1) va).bind fun r => .ok (arg0 :: r.1 ++ [none])

/-! ## Specification -/
namespace Spec

/-- The text of a list of directories, separated by colons. -/
def pathText : List (List Nat) → List Nat
  | [] => []
  | [d] => d
  | d :: ds => d ++ 58 :: pathText ds

/-- The file in a directory. -/
def inDir (file dir : List Nat) : List Nat := dir ++ 47 :: file

/-- The search goes on behind these errors: ENOENT, EACCES, ENOTDIR. -/
def Passed (r : Option Nat) : Prop := r = some 2 ∨ r = some 13 ∨ r = some 20

/-- What has to become of a search through these candidates: the first one at which the search does not go on decides; if there is
none, the error is EACCES if permission was missing somewhere, else ENOENT. -/
inductive Outcome (exec : Kernel) (cands : List (List Nat)) : Out → Prop where
  | runs (before after c) : cands = before ++ c :: after → (∀ b ∈ before, Passed (exec b)) → exec c = none → Outcome exec cands (.runs c)
  | error (before after c e) : cands = before ++ c :: after → (∀ b ∈ before, Passed (exec b)) → exec c = some e → ¬ Passed (some e) →
      Outcome exec cands (.fails e)
  | denied : (∀ b ∈ cands, Passed (exec b)) → (∃ b ∈ cands, exec b = some 13) → Outcome exec cands (.fails 13)
  | absent : (∀ b ∈ cands, Passed (exec b)) → (∀ b ∈ cands, exec b ≠ some 13) → Outcome exec cands (.fails 2)

end Spec
open Spec

/-! ## Proof -/

theorem takeWhile_dir (d r : List Nat) (h : 58 ∉ d) : (d ++ 58 :: r).takeWhile (· ≠ 58) = d := by
  induction d with
  | nil => simp
  | cons c d ih =>
    simp only [List.mem_cons, not_or] at h
    rw [List.cons_append, List.takeWhile_cons_of_pos (by simpa using fun e => h.1 e.symm), ih h.2]

theorem takeWhile_last (d : List Nat) (h : 58 ∉ d) : d.takeWhile (· ≠ 58) = d := by
  induction d with
  | nil => rfl
  | cons c d ih =>
    simp only [List.mem_cons, not_or] at h
    rw [List.takeWhile_cons_of_pos (by simpa using fun e => h.1 e.symm), ih h.2]

theorem Spec.Outcome.cons {exec : Kernel} {c : List Nat} {cs : List (List Nat)} {o : Out} (hc : exec c = some 2 ∨ exec c = some 20) (h : Outcome exec cs o) :
    Outcome exec (c :: cs) o := by
  have hp : Passed (exec c) := by unfold Passed; rcases hc with h | h <;> simp [h]
  cases h with
  | runs b a x h1 h2 h3 =>
    exact .runs (c :: b) a x (by rw [h1]; rfl) (by intro y hy; rcases List.mem_cons.1 hy with rfl | hy; exact hp; exact h2 y hy) h3
  | error b a x e h1 h2 h3 h4 =>
    exact .error (c :: b) a x e (by rw [h1]; rfl) (by intro y hy; rcases List.mem_cons.1 hy with rfl | hy; exact hp; exact h2 y hy) h3 h4
  | denied h1 h2 =>
    obtain ⟨b, hb, hb'⟩ := h2
    exact .denied (by intro y hy; rcases List.mem_cons.1 hy with rfl | hy; exact hp; exact h1 y hy) ⟨b, by simp [hb], hb'⟩
  | absent h1 h2 =>
    refine .absent (by intro y hy; rcases List.mem_cons.1 hy with rfl | hy; exact hp; exact h1 y hy) ?_
    intro y hy
    rcases List.mem_cons.1 hy with rfl | hy
    · rcases hc with h | h <;> simp [h]
    · exact h2 y hy

/-- The same search, with EACCES reported if nothing is found. -/
inductive After (exec : Kernel) (cands : List (List Nat)) (res : Nat) : Out → Prop where
  | decided {o} : Outcome exec cands o → (∀ e, o = .fails e → e = 2 → ∃ b ∈ cands, ¬ Passed (exec b)) → After exec cands res o
  | nothing : (∀ b ∈ cands, Passed (exec b)) → (∀ b ∈ cands, exec b ≠ some 13) → After exec cands res (.fails res)

theorem searchLoop_spec (exec : Kernel) (h0 : ∀ p, exec p ≠ some 0) (file : List Nat) (ds : List (List Nat)) (hd : ∀ d ∈ ds, d ≠ [] ∧ 58 ∉ d) (fuel res : Nat)
    (hf : (pathText ds).length < fuel) :
    ∃ o, searchLoop exec file fuel (pathText ds) res = .ok o ∧ After exec (ds.map (inDir file)) res o := by
  induction ds generalizing fuel res with
  | nil =>
    refine ⟨.fails res, ?_, .nothing (by simp) (by simp)⟩
    cases fuel <;> simp [searchLoop, pathText]
  | cons d ds ih =>
    obtain ⟨hne, hc⟩ := hd d (by simp)
    match fuel, hf with
    | fuel + 1, hf =>
      have hdir : (pathText (d :: ds)).takeWhile (· ≠ 58) = d ∧ (pathText (d :: ds)).drop (d.length + 1) = pathText ds ∧ pathText (d :: ds) ≠ [] ∧
          (pathText ds).length < (pathText (d :: ds)).length := by
        cases ds with
        | nil =>
          refine ⟨takeWhile_last d hc, ?_, hne, ?_⟩
          · exact List.drop_eq_nil_of_le (by simp [pathText])
          · simpa [pathText] using List.length_pos_iff.2 hne
        | cons d' ds =>
          refine ⟨takeWhile_dir d _ hc, ?_, by simp [pathText], ?_⟩
          · show (d ++ 58 :: pathText (d' :: ds)).drop (d.length + 1) = _
            rw [← List.drop_drop, List.drop_left]
            rfl
          · show _ < (d ++ 58 :: pathText (d' :: ds)).length
            rw [List.length_append, List.length_cons]
            omega
      obtain ⟨h1, h2, h3, h4⟩ := hdir
      have ih' := fun r => ih (fun x hx => hd x (by simp [hx])) fuel r (by omega)
      simp only [searchLoop]
      rw [if_neg h3, h1, h2, show d ++ [47] ++ file = inDir file d by simp [inDir]]
      unfold sysExec
      cases he : exec (inDir file d) with
      | none => exact ⟨_, rfl, .decided (.runs [] _ _ rfl (by simp) he) (by intro e h; cases h)⟩
      | some e =>
        match e, he with
        | 0, he => exact absurd he (h0 _)
        | e + 1, he =>
          simp only [Res.bind]
          by_cases hpass : e + 1 = 2 ∨ e + 1 = 20
          · rw [if_pos hpass]
            obtain ⟨o, ho, ha⟩ := ih' res
            refine ⟨o, ho, ?_⟩
            have hx : exec (inDir file d) = some 2 ∨ exec (inDir file d) = some 20 := by
              rw [he]; rcases hpass with h | h <;> simp [h]
            have hp : Passed (exec (inDir file d)) := by unfold Passed; rcases hx with h | h <;> simp [h]
            cases ha with
            | decided h hno =>
              refine .decided (h.cons hx) (fun e' he' h2 => ?_)
              obtain ⟨b, hb, hb'⟩ := hno e' he' h2
              exact ⟨b, by simp only [List.map_cons, List.mem_cons]; exact .inr hb, hb'⟩
            | nothing h h' =>
              refine .nothing ?_ ?_
              · intro y hy
                rcases List.mem_cons.1 hy with rfl | hy
                · exact hp
                · exact h y hy
              · intro y hy
                rcases List.mem_cons.1 hy with rfl | hy
                · rcases hx with h | h <;> simp [h]
                · exact h' y hy
          · rw [if_neg hpass]
            by_cases h13 : e + 1 = 13
            · rw [if_pos h13]
              obtain ⟨o, ho, ha⟩ := ih' 13
              refine ⟨o, ho, ?_⟩
              have hx : exec (inDir file d) = some 13 := by rw [he, h13]
              have hp : Passed (exec (inDir file d)) := .inr (.inl hx)
              have hmem : ∀ {P : List Nat → Prop}, P (inDir file d) → (∀ b ∈ ds.map (inDir file), P b) → ∀ b ∈ (d :: ds).map (inDir file), P b := by
                intro P h1 h2 y hy
                rcases List.mem_cons.1 hy with rfl | hy
                · exact h1
                · exact h2 y hy
              cases ha with
              | nothing h h' => exact .decided (.denied (hmem hp h) ⟨_, by simp, hx⟩) (by rintro _ ⟨⟩ h; cases h)
              | decided h hno =>
                cases h with
                | runs b a x h1 h2 h3 =>
                  exact .decided (.runs (inDir file d :: b) a x (by rw [List.map_cons, h1]; rfl) (by
                    intro y hy; rcases List.mem_cons.1 hy with rfl | hy; exact hp; exact h2 y hy) h3) (by intro e h; cases h)
                | error b a x e' h1 h2 h3 h4 =>
                  refine .decided (.error (inDir file d :: b) a x e' (by rw [List.map_cons, h1]; rfl) (by
                    intro y hy; rcases List.mem_cons.1 hy with rfl | hy; exact hp; exact h2 y hy) h3 h4) ?_
                  rintro _ ⟨⟩ h2'
                  subst h2'
                  exact absurd (.inl rfl) h4
                | denied h1 h2 => exact .decided (.denied (hmem hp h1) ⟨_, by simp, hx⟩) (by rintro _ ⟨⟩ h; cases h)
                | absent h1 h2 =>
                  obtain ⟨b, hb, hb'⟩ := hno 2 rfl rfl
                  exact absurd (h1 b hb) hb'
            · rw [if_neg h13]
              have hn : ¬ Passed (some (e + 1)) := by
                unfold Passed
                simp only [Option.some.injEq]
                omega
              refine ⟨_, rfl, .decided (.error [] _ _ _ rfl (by simp) he hn) ?_⟩
              rintro _ ⟨⟩ h2
              exact absurd (.inl h2) hpass

/-! ## C74 -/

/-- execvp and execvpe of a file without a slash look into the directories of PATH in order. Partial: for directories that are not
empty. -/
theorem execvpe_search_partial (exec : Kernel) (h0 : ∀ p, exec p ≠ some 0) (file : List Nat) (hfile : 47 ∉ file) (ds : List (List Nat))
    (hd : ∀ d ∈ ds, d ≠ [] ∧ 58 ∉ d) :
    ∃ o, execvpe exec (some (pathText ds)) file = .ok o ∧ Outcome exec (ds.map (inDir file)) o := by
  obtain ⟨o, ho, ha⟩ := searchLoop_spec exec h0 file ds hd ((pathText ds).length + 1) 2 (by omega)
  refine ⟨o, ?_, ?_⟩
  · unfold execvpe
    rw [if_neg hfile]
    exact ho
  · cases ha with
    | decided h _ => exact h
    | nothing h h' => exact .absent h h'

/-- Without PATH these are /bin and /usr/bin. -/
theorem execvpe_default (exec : Kernel) (h0 : ∀ p, exec p ≠ some 0) (file : List Nat) (hfile : 47 ∉ file) :
    ∃ o, execvpe exec none file = .ok o ∧ Outcome exec (["/bin".toList.map Char.toNat ++ 47 :: file, "/usr/bin".toList.map Char.toNat ++ 47 :: file]) o := by
  have hb : ["/bin".toList.map Char.toNat, "/usr/bin".toList.map Char.toNat] = [[47, 98, 105, 110], [47, 117, 115, 114, 47, 98, 105, 110]] := by decide +kernel
  obtain ⟨o, ho, ha⟩ := execvpe_search_partial exec h0 file hfile ["/bin".toList.map Char.toNat, "/usr/bin".toList.map Char.toNat] (by
    rw [hb]; decide)
  refine ⟨o, ?_, ha⟩
  rw [hb] at ho
  unfold execvpe at ho ⊢
  exact ho

/-- A file with a slash is not searched for. -/
theorem execvpe_slash (exec : Kernel) (h0 : ∀ p, exec p ≠ some 0) (path : Option (List Nat)) (file : List Nat) (hfile : 47 ∈ file) :
    execvpe exec path file = .ok (match exec file with | none => .runs file | some e => .fails e) := by
  unfold execvpe
  rw [if_pos hfile]
  unfold sysExec
  match h : exec file with
  | none => rfl
  | some 0 => exact absurd h (h0 _)
  | some (e + 1) => rfl

/-- There is only one outcome. -/
theorem outcome_unique (exec : Kernel) (cands : List (List Nat)) (o o' : Out) (h : Outcome exec cands o) (h' : Outcome exec cands o') : o = o' := by
  induction cands with
  | nil =>
    cases h with
    | runs b a c h1 => cases b <;> cases h1
    | error b a c e h1 => cases b <;> cases h1
    | denied _ h => obtain ⟨_, h, _⟩ := h; cases h
    | absent =>
      cases h' with
      | runs b a c h1 => cases b <;> cases h1
      | error b a c e h1 => cases b <;> cases h1
      | denied _ h => obtain ⟨_, h, _⟩ := h; cases h
      | absent => rfl
  | cons x xs ih =>
    clear ih
    have key : ∀ {b b' a a' : List (List Nat)} {c c' : List Nat}, b ++ c :: a = b' ++ c' :: a' → (∀ y ∈ b, Passed (exec y)) → (∀ y ∈ b', Passed (exec y)) →
        ¬ Passed (exec c) → ¬ Passed (exec c') → c = c' := by
      intro b
      induction b with
      | nil =>
        intro b' a a' c c' he _ hb' hc _
        cases b' with
        | nil => cases he; rfl
        | cons y b' => cases he; exact absurd (hb' _ (by simp)) hc
      | cons y b ih =>
        intro b' a a' c c' he hb hb' hc hc'
        cases b' with
        | nil => cases he; exact absurd (hb _ (by simp)) hc'
        | cons z b' =>
          injection he with _ h2
          exact ih h2 (fun w hw => hb w (by simp [hw])) (fun w hw => hb' w (by simp [hw])) hc hc'
    have hnone : ¬ Passed none := by unfold Passed; simp
    have hall : ∀ {b a : List (List Nat)} {c : List Nat}, x :: xs = b ++ c :: a → (∀ y ∈ x :: xs, Passed (exec y)) → ¬ Passed (exec c) → False := by
      intro b a c he hy hc
      exact hc (hy c (by rw [he]; simp))
    cases h with
    | runs b a c h1 h2 h3 =>
      cases h' with
      | runs b' a' c' h1' h2' h3' => rw [key (h1.symm.trans h1') h2 h2' (by rw [h3]; exact hnone) (by rw [h3']; exact hnone)]
      | error b' a' c' e h1' h2' h3' h4' =>
        have := key (h1.symm.trans h1') h2 h2' (by rw [h3]; exact hnone) (by rw [h3']; exact h4')
        rw [this, h3'] at h3
        cases h3
      | denied h _ => exact (hall h1 h (by rw [h3]; exact hnone)).elim
      | absent h _ => exact (hall h1 h (by rw [h3]; exact hnone)).elim
    | error b a c e h1 h2 h3 h4 =>
      cases h' with
      | runs b' a' c' h1' h2' h3' =>
        have := key (h1.symm.trans h1') h2 h2' (by rw [h3]; exact h4) (by rw [h3']; exact hnone)
        rw [this, h3'] at h3
        cases h3
      | error b' a' c' e h1' h2' h3' h4' =>
        have := key (h1.symm.trans h1') h2 h2' (by rw [h3]; exact h4) (by rw [h3']; exact h4')
        rw [this, h3'] at h3
        cases h3
        rfl
      | denied h _ => exact (hall h1 h (by rw [h3]; exact h4)).elim
      | absent h _ => exact (hall h1 h (by rw [h3]; exact h4)).elim
    | denied h hd =>
      cases h' with
      | runs b' a' c' h1' h2' h3' => exact (hall h1' h (by rw [h3']; exact hnone)).elim
      | error b' a' c' e h1' h2' h3' h4' => exact (hall h1' h (by rw [h3']; exact h4')).elim
      | denied => rfl
      | absent _ h' => obtain ⟨b, hb, hb'⟩ := hd; exact absurd hb' (h' b hb)
    | absent h hd =>
      cases h' with
      | runs b' a' c' h1' h2' h3' => exact (hall h1' h (by rw [h3']; exact hnone)).elim
      | error b' a' c' e h1' h2' h3' h4' => exact (hall h1' h (by rw [h3']; exact h4')).elim
      | denied _ h' => obtain ⟨b, hb, hb'⟩ := h'; exact absurd hb' (hd b hb)
      | absent => rfl

theorem countArgs_spec (as : List Nat) (rest : List (Option Nat)) (n : Nat) : countArgs (as.map some ++ none :: rest) n = .ok (n + as.length) := by
  induction as generalizing n with
  | nil => rfl
  | cons a as ih =>
    show countArgs (as.map some ++ none :: rest) (n + 1) = _
    rw [ih]
    simp only [List.length_cons]
    rw [show n + 1 + as.length = n + (as.length + 1) by omega]

theorem take_spec (l rest : List (Option Nat)) : take l.length (l ++ rest) = .ok (l, rest) := by
  induction l with
  | nil => cases rest <;> rfl
  | cons a l ih => simp [take, ih, Res.bind]

/-- execle passes on exactly the arguments, and the environment behind the null pointer. -/
theorem execle_exact (arg0 : Nat) (as : List Nat) (env : Option Nat) (more : List (Option Nat)) :
    execle (some arg0) (as.map some ++ none :: env :: more) = .ok ((arg0 :: as).map some ++ [none], env) := by
  unfold execle
  rw [countArgs_spec]
  have h := take_spec (as.map some ++ [none]) (env :: more)
  have hl : (as.map some ++ [none]).length = 1 + as.length := by simp [Nat.add_comm]
  rw [hl, List.append_assoc] at h
  simp only [Res.bind]
  rw [show as.map some ++ none :: env :: more = as.map some ++ ([none] ++ env :: more) from rfl, h]
  simp [take, Res.bind]

/-- execlp passes on exactly the arguments. -/
theorem execlp_exact (arg0 : Nat) (as : List Nat) (more : List (Option Nat)) :
    execlp (some arg0) (as.map some ++ none :: more) = .ok ((arg0 :: as).map some ++ [none]) := by
  unfold execlp
  rw [countArgs_spec]
  have h := take_spec (as.map some) (none :: more)
  simp only [Res.bind]
  rw [show 1 + as.length - 1 = (as.map some).length by simp, h]
  simp

theorem execlLoop_spec (as : List Nat) (more : List (Option Nat)) (n : Nat) (acc : List (Option Nat)) :
    execlLoop (as.map some ++ none :: more) n acc = if n + as.length < 15 then .ok (acc ++ as.map some ++ [none]) else .panic := by
  induction as generalizing n acc with
  | nil =>
    simp only [List.map_nil, List.nil_append, execlLoop, List.length_nil, Nat.add_zero, List.append_nil]
    rfl
  | cons a as ih =>
    simp only [List.map_cons, List.cons_append, execlLoop, List.length_cons]
    by_cases h : n < 15
    · rw [if_pos h, if_neg (by simp), ih]
      by_cases h2 : n + 1 + as.length < 15
      · rw [if_pos h2, if_pos (by omega)]
        simp
      · rw [if_neg h2, if_neg (by omega)]
    · rw [if_neg h, if_neg (by omega)]

/-- execl passes on exactly the arguments. Partial: for up to 14 of them. -/
theorem execl_partial (arg0 : Nat) (as : List Nat) (h : as.length < 14) (more : List (Option Nat)) :
    execl (some arg0) (as.map some ++ none :: more) = .ok ((arg0 :: as).map some ++ [none]) := by
  unfold execl
  rw [execlLoop_spec, if_pos (by omega)]
  simp

/-- With more of them the program ends. -/
theorem execl_violated (arg0 : Nat) (as : List Nat) (h : 14 ≤ as.length) (more : List (Option Nat)) :
    execl (some arg0) (as.map some ++ none :: more) = .panic := by
  unfold execl
  rw [execlLoop_spec, if_neg (by omega)]

/-! ### Examples and where the code differs -/

def txt (s : String) : List Nat := s.toList.map Char.toNat

/-- A system with one program, and one without permission. -/
def sys : Kernel := fun p => if p = txt "/usr/bin/ls" then none else if p = txt "/bin/secret" then some 13 else if p = txt "/evil" then none else some 2

example : ∃ o, execvpe sys (some (pathText [txt "/bin", txt "/usr/bin"])) (txt "ls") = .ok o ∧ Outcome sys [txt "/bin/ls", txt "/usr/bin/ls"] o := by
  obtain ⟨o, h1, h2⟩ := execvpe_search_partial sys (by intro p; unfold sys; split; simp; split; simp; split <;> simp) (txt "ls") (by decide +kernel)
    [txt "/bin", txt "/usr/bin"] (by decide +kernel)
  exact ⟨o, h1, h2⟩

example : execvpe sys (some (txt "/bin:/usr/bin")) (txt "ls") = .ok (.runs (txt "/usr/bin/ls")) := by decide +kernel
example : execvpe sys (some (txt "/bin:/usr/bin")) (txt "secret") = .ok (.fails 13) := by decide +kernel
example : execvpe sys (some (txt "/bin:/usr/bin")) (txt "other") = .ok (.fails 2) := by decide +kernel
example : execle (some 1) [some 2, some 3, none, some 9] = .ok ([some 1, some 2, some 3, none], some 9) := execle_exact 1 [2, 3] (some 9) []

/-- An empty entry of PATH stands for the current directory, but the code looks into the root directory; it ignores an empty
last entry, and with an empty PATH it looks nowhere. A text without #! or a known format (ENOEXEC, 8) is not given to the shell. -/
theorem empty_entry_violated : execvpe sys (some (txt ":/usr/bin")) (txt "evil") = .ok (.runs (txt "/evil")) ∧
    (∀ exec : Kernel, ∀ file, 47 ∉ file → execvpe exec (some []) file = .ok (.fails 2)) ∧
    (∀ exec : Kernel, exec (txt "/bin/x") = some 2 → execvpe exec (some (txt "/bin:")) (txt "x") = .ok (.fails 2)) ∧
    (∀ exec : Kernel, exec (txt "/bin/x") = some 8 → execvpe exec (some (txt "/bin")) (txt "x") = .ok (.fails 8)) := by
  refine ⟨by decide +kernel, ?_, ?_, ?_⟩
  · intro exec file h
    unfold execvpe
    rw [if_neg h]
    rfl
  · intro exec h
    have e : txt "/bin" ++ [47] ++ txt "x" = txt "/bin/x" := by decide +kernel
    have t : (txt "/bin:").takeWhile (· ≠ 58) = txt "/bin" := by decide +kernel
    have n : (txt "/bin:") ≠ [] := by decide +kernel
    have d : (txt "/bin:").drop ((txt "/bin").length + 1) = [] := by decide +kernel
    have l : (txt "/bin:").length + 1 = 6 := by decide +kernel
    unfold execvpe
    rw [if_neg (by decide +kernel)]
    simp only [l, searchLoop]
    rw [if_neg n, t, e, d]
    unfold sysExec
    rw [h]
    rfl
  · intro exec h
    have e : txt "/bin" ++ [47] ++ txt "x" = txt "/bin/x" := by decide +kernel
    have t : (txt "/bin").takeWhile (· ≠ 58) = txt "/bin" := by decide +kernel
    have n : (txt "/bin") ≠ [] := by decide +kernel
    have l : (txt "/bin").length + 1 = 5 := by decide +kernel
    unfold execvpe
    rw [if_neg (by decide +kernel)]
    simp only [l, searchLoop]
    rw [if_neg n, t, e]
    unfold sysExec
    rw [h]
    rfl

end Mlibc.Exec
