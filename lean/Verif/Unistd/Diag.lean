import Verif.Base

/-!
# Diagnostics

`error` and `error_at_line`, options/glibc/generic/error.cpp; `warn`, `warnx`, `err` and `errx`, options/glibc/generic/err.cpp.

The text of a message (its format with its arguments) and the texts of errors are given.  Not modelled: that `stdout` is flushed,
and errors while writing, except that they may change errno.
-/

namespace Mlibc.Diag

/-- Characters. -/
abbrev Text := List Nat

/-- What is given: the name of the program, a function that prints it (what it prints), and the texts of errors. -/
structure Env where
  name : Text
  printer : Option Text
  strerror : Nat → Text

/-- A call of `error` (no place) or `error_at_line`; `one` is the value of `error_one_per_line` then. -/
structure Call where
  place : Option (Text × Nat)
  status : Int
  errnum : Nat
  msg : Text
  one : Bool

/-- A decimal number. -/
def dec (n : Nat) : Text := (Nat.repr n).toList.map Char.toNat

/-! ## Specification -/

/-- The line that a call prints: the program, the place, the message, the error if there is one. -/
def message (e : Env) (c : Call) : Text :=
  (match c.place with
   | none => e.printer.getD (e.name ++ [58, 32])
   | some (file, line) => e.printer.getD (e.name ++ [58]) ++ file ++ [58] ++ dec line ++ [58, 32]) ++
  c.msg ++ (if c.errnum = 0 then [] else [58, 32] ++ e.strerror c.errnum) ++ [10]

/-- Whether a call prints: with `error_one_per_line` not if the last call was for the same line of the same file. -/
def shown (prev : Option (Text × Nat)) (c : Call) : Bool := !(c.one && c.place.isSome && prev == c.place)

/-- What a history of calls prints, how many messages that are, and the status with which the process has ended. -/
def expected (e : Env) (prev : Option (Text × Nat)) : List Call → Text × Nat × Option Int
  | [] => ([], 0, none)
  | c :: cs =>
    let text := if shown prev c then message e c else []
    let n := if shown prev c then 1 else 0
    if c.status ≠ 0 then (text, n, some c.status)
    else
      let r := expected e (c.place.or prev) cs
      (text ++ r.1, n + r.2.1, r.2.2)

/-! ## The code -/

/-- `stderr`, `error_message_count`, and the static variables of `error_at_line`, error.cpp L8, L37-38. -/
structure State where
  out : Text
  count : Nat
  first : Bool
  last : Nat

/-- error.cpp L12-31: the state, and the status with which the process ends. -/
def error (e : Env) (s : State) (status : Int) (errnum : Nat) (msg : Text) : State × Option Int :=
  let s := { s with count := (s.count + 1) % 2 ^ 32 }                                              -- L16
  let s := { s with out := s.out ++ (match e.printer with | some p => p | none => e.name ++ [58, 32]) }   -- L19-23
  let s := { s with out := s.out ++ msg }                                                          -- L24
  let s := { s with out := s.out ++ ([58, 32] ++ e.strerror errnum ++ [10]) }                      -- L27
  (s, if status ≠ 0 then some status else none)                                                    -- L29-30

/-- error.cpp L33-62 -/
def errorAtLine (e : Env) (s : State) (one : Bool) (status : Int) (errnum : Nat) (file : Text) (line : Nat) (msg : Text) :
    State × Option Int :=
  let s :=
    if ¬ (s.last = line ∧ one = true ∧ s.first = false) then                                       -- L39
      let s := { s with first := false, last := line, count := (s.count + 1) % 2 ^ 32 }            -- L40-42
      let s := { s with out := s.out ++ (match e.printer with | some p => p | none => e.name ++ [58]) }   -- L45-49
      let s := { s with out := s.out ++ (file ++ [58] ++ dec line ++ [58, 32]) }                   -- L50
      let s := { s with out := s.out ++ msg }                                                      -- L51
      if errnum ≠ 0 then { s with out := s.out ++ ([58, 32] ++ e.strerror errnum ++ [10]) } else s -- L53-55
    else s
  (s, if status ≠ 0 then some status else none)                                                    -- L59-61

def step (e : Env) (s : State) (c : Call) : State × Option Int :=
  match c.place with
  | none => error e s c.status c.errnum c.msg
  | some (file, line) => errorAtLine e s c.one c.status c.errnum file line c.msg

/-- A history of calls, up to the end of the process. -/
def run (e : Env) (s : State) : List Call → State × Option Int
  | [] => (s, none)
  | c :: cs => match step e s c with
    | (s, some st) => (s, some st)
    | (s, none) => run e s cs

/-- err.cpp L9-16 with options/ansi/generic/stdio.cpp L2315-2321, `vwarn`: what is printed; `errno` at the start and `errno'` after
    the first outputs. -/
def warn (e : Env) (_errno errno' : Nat) (msg : Option Text) : Text :=
  e.name ++ [58, 32] ++ (match msg with | some m => m ++ [58, 32] | none => []) ++ (e.strerror errno' ++ [10])

/-- err.cpp L18-24 `vwarnx` -/
def warnx (e : Env) (msg : Option Text) : Text := e.name ++ [58, 32] ++ (match msg with | some m => m | none => []) ++ [10]

/-! ## Theorems -/

/-- The static variables fit the last place. -/
def Fits (s : State) (prev : Option (Text × Nat)) : Prop :=
  match prev with
  | none => s.first = true
  | some p => s.first = false ∧ s.last = p.2

theorem step_eq (e : Env) (s : State) (prev : Option (Text × Nat)) (c : Call) (hf : Fits s prev) (he : c.errnum ≠ 0)
    (hp : ∀ f g l, prev = some (f, l) → c.place = some (g, l) → f = g) :
    (step e s c).2 = (if c.status ≠ 0 then some c.status else none) ∧
    (step e s c).1.out = s.out ++ (if shown prev c then message e c else []) ∧
    (step e s c).1.count % 2 ^ 32 = (s.count + if shown prev c then 1 else 0) % 2 ^ 32 ∧
    Fits (step e s c).1 (c.place.or prev) := by
  obtain ⟨place, status, errnum, msg, one⟩ := c
  simp only at he hp
  cases place with
  | none =>
    have hs : shown prev ⟨none, status, errnum, msg, one⟩ = true := by simp [shown]
    simp only [step, error, hs, if_true, message, if_neg he]
    refine ⟨trivial, ?_, ?_, ?_⟩
    · cases e.printer <;> simp
    · omega
    · simpa [Fits] using hf
  | some p =>
    obtain ⟨file, line⟩ := p
    by_cases hc : s.last = line ∧ one = true ∧ s.first = false
    · have hprev : prev = some (file, line) := by
        cases prev with
        | none => simp only [Fits] at hf; rw [hf] at hc; exact absurd hc.2.2 (by simp)
        | some q =>
          obtain ⟨f, l⟩ := q
          simp only [Fits] at hf
          have hl : l = line := by rw [← hf.2]; exact hc.1
          subst hl
          rw [hp f file l rfl rfl]
      have hs : shown prev ⟨some (file, line), status, errnum, msg, one⟩ = false := by simp [shown, hprev, hc.2.1]
      have e1 : step e s ⟨some (file, line), status, errnum, msg, one⟩ = (s, if status ≠ 0 then some status else none) := by
        simp only [step, errorAtLine]; rw [if_neg (fun x => x hc)]
      rw [e1, hs]
      refine ⟨rfl, by simp, by simp, ?_⟩
      simp only [Option.or, Fits]
      exact ⟨hc.2.2, hc.1⟩
    · have hs : shown prev ⟨some (file, line), status, errnum, msg, one⟩ = true := by
        cases hb : shown prev ⟨some (file, line), status, errnum, msg, one⟩ with
        | true => rfl
        | false =>
          simp [shown] at hb
          rw [hb.2] at hf
          simp only [Fits] at hf
          exact absurd ⟨hf.2, hb.1, hf.1⟩ hc
      simp only [step, errorAtLine, hs, if_pos hc, if_true, if_pos he, message, if_neg he]
      refine ⟨trivial, ?_, ?_, ?_⟩
      · cases e.printer <;> simp
      · omega
      · simp [Option.or, Fits]

/-- **C127** (calls with an error number, and where calls for the same line number are for the same file; the full statement, for
    all calls, does not hold, see below). A history of calls prints exactly the lines it should, counts them and ends with the
    first status that is not 0. -/
theorem error_history_partial (e : Env) (cs : List Call) (he : ∀ c ∈ cs, c.errnum ≠ 0)
    (hp : ∀ c ∈ cs, ∀ d ∈ cs, ∀ f g l, c.place = some (f, l) → d.place = some (g, l) → f = g) :
    (run e ⟨[], 0, true, 0⟩ cs).1.out = (expected e none cs).1 ∧
    (run e ⟨[], 0, true, 0⟩ cs).1.count % 2 ^ 32 = (expected e none cs).2.1 % 2 ^ 32 ∧
    (run e ⟨[], 0, true, 0⟩ cs).2 = (expected e none cs).2.2 := by
  have gen : ∀ (cs : List Call) (s : State) (prev : Option (Text × Nat)), Fits s prev → (∀ c ∈ cs, c.errnum ≠ 0) →
      (∀ c ∈ cs, ∀ d ∈ cs, ∀ f g l, c.place = some (f, l) → d.place = some (g, l) → f = g) →
      (∀ c ∈ cs, ∀ f g l, prev = some (f, l) → c.place = some (g, l) → f = g) →
      (run e s cs).1.out = s.out ++ (expected e prev cs).1 ∧
      (run e s cs).1.count % 2 ^ 32 = (s.count + (expected e prev cs).2.1) % 2 ^ 32 ∧
      (run e s cs).2 = (expected e prev cs).2.2 := by
    intro cs
    induction cs with
    | nil => intro s prev _ _ _ _; simp [run, expected]
    | cons c cs ih =>
      intro s prev hf he hp hq
      obtain ⟨h1, h2, h3, h4⟩ := step_eq e s prev c hf (he c (by simp)) (hq c (by simp))
      simp only [run, expected]
      by_cases hs : c.status ≠ 0
      · rw [if_pos hs] at h1
        rw [if_pos hs]
        have : step e s c = ((step e s c).1, some c.status) := by rw [← h1]
        rw [this]
        exact ⟨h2, h3, rfl⟩
      · rw [if_neg hs] at h1
        rw [if_neg hs]
        have : step e s c = ((step e s c).1, none) := by rw [← h1]
        rw [this]
        obtain ⟨i1, i2, i3⟩ := ih (step e s c).1 (c.place.or prev) h4 (fun d hd => he d (List.mem_cons_of_mem _ hd))
          (fun a ha b hb => hp a (List.mem_cons_of_mem _ ha) b (List.mem_cons_of_mem _ hb)) (by
            intro d hd f g l h5 h6
            cases hpl : c.place with
            | none => rw [hpl] at h5; exact hq d (List.mem_cons_of_mem _ hd) f g l (by simpa using h5) h6
            | some p =>
              rw [hpl] at h5
              simp at h5
              exact hp c (by simp) d (List.mem_cons_of_mem _ hd) f g l (by rw [hpl, h5]) h6)
        refine ⟨?_, ?_, i3⟩
        · rw [i1, h2]; simp
        · rw [i2, Nat.add_mod, h3, ← Nat.add_mod]
          rw [Nat.add_assoc]
  have := gen cs ⟨[], 0, true, 0⟩ none rfl he hp (by intro c _ f g l h; cases h)
  simpa using this

/-- A history that meets the hypotheses: two messages for line 7 of file `a`, of which the second is not shown, then `error`. -/
example : let cs : List Call := [⟨some ([97], 7), 0, 2, [120], true⟩, ⟨some ([97], 7), 0, 2, [121], true⟩, ⟨none, 1, 5, [122], true⟩]
    (∀ c ∈ cs, c.errnum ≠ 0) ∧ (∀ c ∈ cs, ∀ d ∈ cs, ∀ f g l, c.place = some (f, l) → d.place = some (g, l) → f = g) ∧
    (expected ⟨[112], none, fun n => [48 + n]⟩ none cs) =
      ([112, 58, 97, 58, 55, 58, 32, 120, 58, 32, 50, 10] ++ [112, 58, 32, 122, 58, 32, 53, 10], 2, some 1) := by
  refine ⟨by simp, ?_, by decide⟩
  intro c hc d hd f g l h1 h2
  simp at hc hd
  rcases hc with rfl | rfl | rfl <;> rcases hd with rfl | rfl | rfl <;> simp at h1 h2 <;> rw [← h1.1, ← h2.1]

/-- **C127 does not hold in full**: `error` without an error number prints the text of error 0 as well. -/
theorem error_zero_violated : let e : Env := ⟨[112], none, fun n => [48 + n]⟩; let cs : List Call := [⟨none, 0, 0, [120], false⟩]
    (expected e none cs).1 = [112, 58, 32, 120, 10] ∧ (run e ⟨[], 0, true, 0⟩ cs).1.out = [112, 58, 32, 120, 58, 32, 48, 10] := by
  decide

/-- **C127 does not hold in full**: `error_at_line` without an error number does not end the line. -/
theorem error_at_line_newline_violated : let e : Env := ⟨[112], none, fun n => [48 + n]⟩
    let cs : List Call := [⟨some ([97], 7), 0, 0, [120], false⟩]
    (expected e none cs).1 = [112, 58, 97, 58, 55, 58, 32, 120, 10] ∧
    (run e ⟨[], 0, true, 0⟩ cs).1.out = [112, 58, 97, 58, 55, 58, 32, 120] := by decide

/-- **C127 does not hold in full**: with `error_one_per_line` a message for line 7 of another file is not shown. -/
theorem error_at_line_file_violated : let e : Env := ⟨[112], none, fun n => [48 + n]⟩
    let cs : List Call := [⟨some ([97], 7), 0, 2, [120], true⟩, ⟨some ([98], 7), 0, 2, [120], true⟩]
    (expected e none cs).2.1 = 2 ∧ (run e ⟨[], 0, true, 0⟩ cs).1.count = 1 := by decide

/-- **C127** (writing does not change errno). `warn` and `err` print the program, the message and the text of errno at the time of
    the call. -/
theorem warn_spec_partial (e : Env) (errno errno' : Nat) (h : errno' = errno) (msg : Option Text) :
    warn e errno errno' msg = e.name ++ [58, 32] ++ (msg.map (· ++ [58, 32])).getD [] ++ e.strerror errno ++ [10] := by
  subst h
  cases msg <;> simp [warn]

/-- **C127 does not hold in full**: if the first output changes errno, `warn` prints the text of another error. -/
theorem warn_errno_violated : warn ⟨[112], none, fun n => [48 + n]⟩ 2 5 none = [112, 58, 32, 53, 10] := by decide

/-- **C127.** `warnx` and `errx` print the program and the message. -/
theorem warnx_spec (e : Env) (msg : Option Text) : warnx e msg = e.name ++ [58, 32] ++ msg.getD [] ++ [10] := by
  cases msg <;> simp [warnx]

end Mlibc.Diag
