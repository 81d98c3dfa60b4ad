/-
Exit handlers: `__cxa_atexit`, `__cxa_finalize`, the part of `__mlibc_do_finalize` that runs handlers, `at_quick_exit`
and `quick_exit` (options/lsb/generic/dso_exit.cpp L31-98; options/ansi/generic/stdlib.cpp L182-188, L213-246).
Handlers are arbitrary: each does any sequence of registrations and finalisations. `frg::vector` is not in the
repository: when a push moves the elements is a parameter. Property C45.
-/
namespace Mlibc.AtExit

/-- An entry of the exit queue: function (`none` is the null pointer), object it belongs to (0 is none). The argument is
part of the function. dso_exit.cpp L12-18 -/
abbrev Entry := Option Nat × Nat

inductive Ev where
  | call (f : Nat)
  | reg (f dso : Nat)
  deriving DecidableEq, Repr

/-- `moves` counts how often the vector has moved its elements. -/
structure Q where
  entries : List Entry
  moves : Nat
  trace : List Ev
  deriving DecidableEq, Repr

/-- What a handler may do. -/
inductive Act where
  | reg (f dso : Nat)
  | finalize (dso : Nat)
  deriving DecidableEq, Repr

/-- Outcomes: `fuel` means the computation has not ended within the fuel. -/
inductive Out where
  | ok (q : Q) | ub | fuel
  deriving DecidableEq, Repr

def Out.bind (o : Out) (f : Q → Out) : Out :=
  match o with
  | .ok q => f q
  | .ub => .ub
  | .fuel => .fuel

/-- `__cxa_atexit`; `grows n`: a push onto a vector of `n` elements moves them. dso_exit.cpp L31-38 -/
def register (grows : Nat → Bool) (q : Q) (f dso : Nat) : Q :=
  { entries := q.entries ++ [(some f, dso)]
    moves := if grows q.entries.length then q.moves + 1 else q.moves
    trace := q.trace ++ [.reg f dso] }

/-- Which handlers a pass runs: `__cxa_finalize(dso)` L49; the loop of `__mlibc_do_finalize` L84. -/
inductive Pass where
  | finalize (dso : Nat)
  | exit
  deriving DecidableEq, Repr

def Pass.selects : Pass → Nat → Bool
  | .finalize dso, d => dso == 0 || d == dso
  | .exit, d => d == 0

/-- What is left to do: entries below `i` of a pass; actions of a handler. -/
inductive Task where
  | pass (p : Pass) (i : Nat)
  | acts (as : List Act)

/-- The loop of `__cxa_finalize` and `__mlibc_do_finalize`, and the actions of handlers. After the call the loop writes
through the reference it took before the call; if the vector has moved in between this is undefined. L42-54, L79-89 -/
def go (beh : List Ev → Nat → List Act) (grows : Nat → Bool) : Nat → Task → Q → Out
  | 0, _, _ => .fuel
  | _ + 1, .pass _ 0, q => .ok q
  | n + 1, .pass p (i + 1), q =>
    match q.entries[i]? with
    | none => .ub
    | some (none, _) => go beh grows n (.pass p i) q
    | some (some f, d) =>
      if p.selects d then
        (go beh grows n (.acts (beh (q.trace ++ [.call f]) f)) { q with trace := q.trace ++ [.call f] }).bind fun q' =>
          if q'.moves = q.moves then go beh grows n (.pass p i) { q' with entries := q'.entries.set i (none, d) }
          else .ub
      else go beh grows n (.pass p i) q
  | _ + 1, .acts [], q => .ok q
  | n + 1, .acts (.reg f d :: as), q => go beh grows n (.acts as) (register grows q f d)
  | n + 1, .acts (.finalize d :: as), q =>
    (go beh grows n (.pass (.finalize d) q.entries.length) q).bind fun q' => go beh grows n (.acts as) q'

/-- What the program does: register a handler, or run a pass (an object is unloaded; the process exits, which is the
pass `.exit` followed by one `__cxa_finalize` for each loaded object, L90-93). -/
inductive Op where
  | reg (f dso : Nat)
  | run (p : Pass)
  deriving DecidableEq, Repr

def exec (beh : List Ev → Nat → List Act) (grows : Nat → Bool) (fuel : Nat) : List Op → Q → Out
  | [], q => .ok q
  | .reg f d :: ops, q => exec beh grows fuel ops (register grows q f d)
  | .run p :: ops, q => (go beh grows fuel (.pass p q.entries.length) q).bind (exec beh grows fuel ops)

/-! ## Specification -/

/-- Whether a pass must run the handlers of an object (0: handlers of no object): finalising an object runs its
handlers, finalising "all" (0) runs every handler, exit runs those of no object. -/
def mustRun (p : Pass) (dso : Nat) : Bool :=
  match p with
  | .finalize 0 => true
  | .finalize o => dso = o
  | .exit => dso = 0

/-- The calls a history must make: `pending` has the handlers not yet run, most recent first. -/
def spec : List (Nat × Nat) → List Op → List Ev
  | _, [] => []
  | pending, .reg f d :: ops => .reg f d :: spec ((f, d) :: pending) ops
  | pending, .run p :: ops =>
    (pending.filter (fun h => mustRun p h.2)).map (fun h => .call h.1) ++
      spec (pending.filter (fun h => !mustRun p h.2)) ops

/-! ## Proof -/

theorem selects_mustRun (p : Pass) (d : Nat) : p.selects d = mustRun p d := by
  cases p with
  | exit => rfl
  | finalize o => cases o <;> simp [Pass.selects, mustRun, Bool.beq_eq_decide_eq]

/-- Handlers of the queue not yet run, most recent first. -/
def pendingOf (es : List Entry) : List (Nat × Nat) := (es.filterMap (fun e => e.1.map (fun f => (f, e.2)))).reverse

theorem pendingOf_snoc (es : List Entry) (e : Entry) :
    pendingOf (es ++ [e]) = (match e.1 with | some f => [(f, e.2)] | none => []) ++ pendingOf es := by
  obtain ⟨f, d⟩ := e
  cases f <;> simp [pendingOf]

/-- Handlers that do nothing else. -/
def quiet : List Ev → Nat → List Act := fun _ _ => []

theorem pass_quiet (grows : Nat → Bool) (p : Pass) (front rest : List Entry) (m : Nat) (tr : List Ev) (n : Nat)
    (hn : front.length + 1 < n) : ∃ front', front'.length = front.length ∧
    go quiet grows n (.pass p front.length) ⟨front ++ rest, m, tr⟩ =
      .ok ⟨front' ++ rest, m, tr ++ ((pendingOf front).filter (fun h => p.selects h.2)).map (fun h => .call h.1)⟩ ∧
    pendingOf front' = (pendingOf front).filter (fun h => !p.selects h.2) := by
  induction hk : front.length generalizing front rest n tr with
  | zero =>
    obtain rfl : front = [] := List.length_eq_zero_iff.1 hk
    match n with
    | n + 1 => exact ⟨[], rfl, by simp [go, pendingOf], by simp [pendingOf]⟩
  | succ k ih =>
    obtain ⟨ini, e, rfl⟩ : ∃ ini e, front = ini ++ [e] := by
      have hne : front ≠ [] := by intro h; rw [h] at hk; simp at hk
      exact ⟨front.dropLast, front.getLast hne, (List.dropLast_concat_getLast hne).symm⟩
    obtain ⟨f, d⟩ := e
    have hlen : ini.length = k := by simpa using hk
    match n, hn with
    | n + 1, hn =>
      simp only [List.length_append, List.length_singleton] at hn
      have hget : ((ini ++ [(f, d)]) ++ rest)[k]? = some (f, d) := by
        rw [List.append_assoc, List.getElem?_append_right (by omega), hlen]; simp
      rw [pendingOf_snoc]
      cases f with
      | none =>
        obtain ⟨front', h1, h2, h3⟩ := ih ini ((none, d) :: rest) tr n (by omega) hlen
        refine ⟨front' ++ [(none, d)], by simp [h1], ?_, by rw [pendingOf_snoc]; simpa using h3⟩
        rw [go, hget]
        simpa using h2
      | some f =>
        by_cases hs : p.selects d = true
        · obtain ⟨front', h1, h2, h3⟩ := ih ini ((none, d) :: rest) (tr ++ [.call f]) n (by omega) hlen
          refine ⟨front' ++ [(none, d)], by simp [h1], ?_, by rw [pendingOf_snoc]; simpa [hs] using h3⟩
          rw [go, hget]
          match n, hn with
          | n + 1, _ =>
            have hq : go quiet grows (n + 1) (.acts (quiet (tr ++ [.call f]) f))
                ⟨ini ++ [(some f, d)] ++ rest, m, tr ++ [.call f]⟩ =
                .ok ⟨ini ++ [(some f, d)] ++ rest, m, tr ++ [.call f]⟩ := by rw [quiet, go]
            have hset : (ini ++ [(some f, d)] ++ rest).set k (none, d) = ini ++ (none, d) :: rest := by
              rw [List.append_assoc, List.set_append_right _ _ (by omega), hlen]; simp
            simp only [hs, if_true, hq, Out.bind]
            rw [hset, h2]
            simp [hs]
        · obtain ⟨front', h1, h2, h3⟩ := ih ini ((some f, d) :: rest) tr n (by omega) hlen
          refine ⟨front' ++ [(some f, d)], by simp [h1], ?_, by rw [pendingOf_snoc]; simpa [hs] using h3⟩
          rw [go, hget]
          simpa [hs] using h2

theorem exec_quiet (grows : Nat → Bool) (ops : List Op) (q : Q) (fuel : Nat)
    (hf : q.entries.length + ops.length + 1 < fuel) : ∃ q', exec quiet grows fuel ops q = .ok q' ∧
    q'.trace = q.trace ++ spec (pendingOf q.entries) ops := by
  induction ops generalizing q with
  | nil => exact ⟨q, rfl, by simp [spec]⟩
  | cons op ops ih =>
    simp only [List.length_cons] at hf
    cases op with
    | reg f d =>
      obtain ⟨q', h1, h2⟩ := ih (register grows q f d) (by simp [register]; omega)
      refine ⟨q', by rw [exec]; exact h1, ?_⟩
      rw [h2]
      simp [register, pendingOf_snoc, spec]
    | run p =>
      obtain ⟨front', h1, h2, h3⟩ := pass_quiet grows p q.entries [] q.moves q.trace fuel (by omega)
      rw [List.append_nil] at h2
      obtain ⟨q', k1, k2⟩ := ih ⟨front' ++ [], q.moves, q.trace ++
        ((pendingOf q.entries).filter (fun h => p.selects h.2)).map (fun h => .call h.1)⟩ (by simp [h1]; omega)
      refine ⟨q', ?_, ?_⟩
      · rw [exec]
        rw [show q = ⟨q.entries, q.moves, q.trace⟩ from rfl, h2, Out.bind]
        exact k1
      · rw [k2]
        simp only [List.append_nil, h3, spec, List.append_assoc, selects_mustRun]

/-- **C45** (partial): for every history of registrations, object finalisations and process exit, when handlers
themselves do not register or finalise, the calls made are those of the specification: each pass runs the matching
handlers not yet run, most recently registered first, and no handler runs twice.
Missing from the full property: handlers that register or finalise (`exit_nested_register_violated`,
`exit_dangling_violated`, `exit_nested_finalize_violated`). -/
theorem atexit_history_partial (grows : Nat → Bool) (ops : List Op) : ∃ fuel q',
    exec quiet grows fuel ops ⟨[], 0, []⟩ = .ok q' ∧ q'.trace = spec [] ops := by
  obtain ⟨q', h1, h2⟩ := exec_quiet grows ops ⟨[], 0, []⟩ (ops.length + 2) (by simp)
  exact ⟨_, q', h1, by simpa [pendingOf] using h2⟩

example : spec [] [.reg 1 0, .reg 2 7, .reg 3 0, .run (.finalize 7), .run .exit, .run (.finalize 7)] =
    [.reg 1 0, .reg 2 7, .reg 3 0, .call 2, .call 3, .call 1] := by decide
example : spec [] [.reg 1 0, .reg 2 7, .run (.finalize 0)] = [.reg 1 0, .reg 2 7, .call 2, .call 1] := by decide

/-- **C45** violated: a handler registered while `exit` runs handlers is never run, even if the vector does not move.
dso_exit.cpp L80 -/
theorem exit_nested_register_violated : ∃ beh q', exec beh (fun _ => false) 20 [.reg 1 0, .run .exit, .run (.finalize 7)]
    ⟨[], 0, []⟩ = .ok q' ∧ .reg 2 0 ∈ q'.trace ∧ .call 2 ∉ q'.trace :=
  ⟨fun _ f => if f = 1 then [.reg 2 0] else [], _, rfl, by decide, by decide⟩

/-- **C45** violated: if registering moves the vector, the loop then writes through a dangling reference.
dso_exit.cpp L45-51, L81-87 -/
theorem exit_dangling_violated : ∃ beh, exec beh (fun _ => true) 20 [.reg 1 0, .run .exit] ⟨[], 0, []⟩ = .ub :=
  ⟨fun _ f => if f = 1 then [.reg 2 0] else [], rfl⟩

/-- **C45** violated: a handler of object 7 that calls `__cxa_finalize(7)` (as unloading the object does) is run again.
dso_exit.cpp L50-51 -/
theorem exit_nested_finalize_violated : ∃ beh q', exec beh (fun _ => false) 20 [.reg 1 7, .run (.finalize 7)]
    ⟨[], 0, []⟩ = .ok q' ∧ q'.trace = [.reg 1 7, .call 1, .call 1] :=
  ⟨fun es f => if f = 1 ∧ es.count (.call 1) = 1 then [.finalize 7] else [], _, rfl, by decide⟩

/-! ## quick_exit -/

/-- `at_quick_exit`: push at the back. stdlib.cpp L213-219 -/
def atQuickExit (q : List Nat) (f : Nat) : List Nat := q ++ [f]

/-- `quick_exit`: pops from the back and calls. A handler that registers another would lock `quickExitQueueMutex` again;
such handlers are not modelled. stdlib.cpp L237-246 -/
def quickExit (q : List Nat) : List Nat :=
  if h : q = [] then [] else q.getLast h :: quickExit q.dropLast
termination_by q.length
decreasing_by
  have : q.length ≠ 0 := fun h' => h (List.length_eq_zero_iff.1 h')
  simp; omega

/-- **C45** (quick_exit): `quick_exit` calls the functions registered with `at_quick_exit`, each once, in reverse
order. -/
theorem quick_exit_reverse (fs : List Nat) : quickExit (fs.foldl atQuickExit []) = fs.reverse := by
  have h1 : ∀ (fs q : List Nat), fs.foldl atQuickExit q = q ++ fs := by
    intro fs
    induction fs with
    | nil => simp
    | cons f fs ih => intro q; rw [List.foldl_cons, ih]; simp [atQuickExit]
  have h2 : ∀ n (q : List Nat), q.length = n → quickExit q = q.reverse := by
    intro n
    induction n with
    | zero => intro q hq; rw [List.length_eq_zero_iff.1 hq, quickExit]; simp
    | succ n ih =>
      intro q hq
      have hne : q ≠ [] := by intro h; rw [h] at hq; simp at hq
      rw [quickExit, dif_neg hne, ih q.dropLast (by simp; omega)]
      conv => rhs; rw [← List.dropLast_concat_getLast hne]
      simp
  rw [h1, h2 _ _ rfl]
  simp

example : quickExit ([1, 2, 3].foldl atQuickExit []) = [3, 2, 1] := by rw [quick_exit_reverse]; rfl

end Mlibc.AtExit
