import Verif.Base

/-
`fopen` mode strings (options/ansi/generic/file-io.cpp L587-635, `fd_file::parse_modestring`). A mode string is the
list of the bytes before the terminator. Property C60.
-/
namespace Mlibc.Mode

inductive Access where
  | rdonly | wronly | rdwr
  deriving DecidableEq, Repr

/-- The `open` flags. -/
structure Flags where
  access : Access
  append : Bool
  creat : Bool
  trunc : Bool
  excl : Bool
  cloexec : Bool
  deriving DecidableEq, Repr

/-- The first character; `hasPlus`: there is a `+` anywhere. An illegal character is only logged. L589-613 -/
def firstChar (c : UInt8) (hasPlus : Bool) : Flags :=
  if c = 114 then ⟨if hasPlus then .rdwr else .rdonly, false, false, false, false, false⟩
  else if c = 119 then ⟨if hasPlus then .rdwr else .wronly, false, true, true, false, false⟩
  else if c = 97 then ⟨if hasPlus then .rdwr else .wronly, true, true, false, false, false⟩
  else ⟨.rdonly, false, false, false, false, false⟩

/-- The loop over the other characters. L617-632 -/
def moreFlags : List UInt8 → Flags → Flags
  | [], f => f
  | c :: cs, f =>
    if c = 43 then moreFlags cs f
    else if c = 98 then moreFlags cs f
    else if c = 101 then moreFlags cs { f with cloexec := true }
    else if c = 120 then moreFlags cs { f with excl := true }
    else moreFlags cs f

/-- `parse_modestring`: on the empty string the loop starts behind the terminator. L587-635 -/
def parse : List UInt8 → Res Flags
  | [] => .ub
  | c :: cs => .ok (moreFlags cs (firstChar c ((c :: cs).contains 43)))

/-! ## Specification -/

def Flags.readable (f : Flags) : Prop := f.access = .rdonly ∨ f.access = .rdwr
def Flags.writable (f : Flags) : Prop := f.access = .wronly ∨ f.access = .rdwr

/-- What ISO C (`r`, `w`, `a`, `+`, `b`, `x`) and the extension `e` prescribe for a mode that begins with `c` and goes
on with `cs`. -/
structure Prescribed (c : UInt8) (cs : List UInt8) (f : Flags) : Prop where
  readable : f.readable ↔ c = 'r'.toUInt8 ∨ '+'.toUInt8 ∈ cs
  writable : f.writable ↔ c = 'w'.toUInt8 ∨ c = 'a'.toUInt8 ∨ '+'.toUInt8 ∈ cs
  append : f.append ↔ c = 'a'.toUInt8
  creat : f.creat ↔ c = 'w'.toUInt8 ∨ c = 'a'.toUInt8
  trunc : f.trunc ↔ c = 'w'.toUInt8
  excl : f.excl ↔ 'x'.toUInt8 ∈ cs
  cloexec : f.cloexec ↔ 'e'.toUInt8 ∈ cs

/-! ## Proof -/

theorem moreFlags_eq (cs : List UInt8) (f : Flags) : moreFlags cs f =
    { f with excl := f.excl || cs.contains 120, cloexec := f.cloexec || cs.contains 101 } := by
  induction cs generalizing f with
  | nil => simp [moreFlags]
  | cons c cs ih =>
    have h := fun (x : UInt8) => List.contains_cons (l := cs) (a := c) (b := x)
    unfold moreFlags
    split
    · rename_i e; subst e; rw [ih]; simp
    · split
      · rename_i e; subst e; rw [ih]; simp
      · split
        · rename_i e; subst e; rw [ih]; simp
        · split
          · rename_i e; subst e; rw [ih]; simp
          · rename_i h1 h2 h3 h4
            rw [ih]
            have h3' : ¬ (101 : UInt8) = c := fun e => h3 e.symm
            have h4' : ¬ (120 : UInt8) = c := fun e => h4 e.symm
            simp [h3', h4']

/-- **C60** (partial): for every mode string that begins with `r`, `w` or `a`, the flags are those prescribed, whatever
the order of the other characters. Missing from the full property: other characters are ignored, so that e.g. `rz+`
yields a writable stream (`mode_junk_violated`); the empty string is read past its end (`mode_empty_violated`). -/
theorem mode_flags_partial (c : UInt8) (cs : List UInt8) (hc : c = 'r'.toUInt8 ∨ c = 'w'.toUInt8 ∨ c = 'a'.toUInt8) :
    ∃ f, parse (c :: cs) = .ok f ∧ Prescribed c cs f := by
  refine ⟨_, rfl, ?_⟩
  rw [moreFlags_eq]
  have hr : 'r'.toUInt8 = 114 := by decide
  have hw : 'w'.toUInt8 = 119 := by decide
  have ha : 'a'.toUInt8 = 97 := by decide
  have hp : '+'.toUInt8 = 43 := by decide
  have hx : 'x'.toUInt8 = 120 := by decide
  have he : 'e'.toUInt8 = 101 := by decide
  have key : (c :: cs).contains 43 = cs.contains 43 := by
    rw [List.contains_cons]
    rcases hc with h | h | h <;> rw [h] <;> simp [hr, hw, ha]
  rw [key]
  by_cases hplus : (43 : UInt8) ∈ cs
  · have : cs.contains 43 = true := by simpa using hplus
    rw [this]
    rcases hc with rfl | rfl | rfl <;>
      constructor <;> simp [firstChar, Flags.readable, Flags.writable, hr, hw, ha, hp, hx, he, hplus]
  · have : cs.contains 43 = false := by simpa using hplus
    rw [this]
    rcases hc with rfl | rfl | rfl <;>
      constructor <;> simp [firstChar, Flags.readable, Flags.writable, hr, hw, ha, hp, hx, he, hplus]

example : parse [119, 98, 43, 120] = .ok ⟨.rdwr, false, true, true, true, false⟩ := by decide

/-- **C60** (partial): a mode string that begins otherwise never gives a stream for writing, and creates nothing. -/
theorem mode_other_partial (c : UInt8) (cs : List UInt8)
    (hc : c ≠ 'r'.toUInt8 ∧ c ≠ 'w'.toUInt8 ∧ c ≠ 'a'.toUInt8) :
    ∃ f, parse (c :: cs) = .ok f ∧ ¬ f.writable ∧ f.creat = false ∧ f.trunc = false := by
  have hr : 'r'.toUInt8 = 114 := by decide
  have hw : 'w'.toUInt8 = 119 := by decide
  have ha : 'a'.toUInt8 = 97 := by decide
  rw [hr, hw, ha] at hc
  refine ⟨_, rfl, ?_⟩
  rw [moreFlags_eq]
  simp [firstChar, Flags.writable, hc]

example : parse [122, 43] = .ok ⟨.rdonly, false, false, false, false, false⟩ := by decide

/-- **C60** violated: the ill-formed mode `rz+` silently yields a writable stream. file-io.cpp L590, L628-631 -/
theorem mode_junk_violated : parse [114, 122, 43] = .ok ⟨.rdwr, false, false, false, false, false⟩ := by decide

/-- **C60** violated: the empty mode string is read past its terminator. file-io.cpp L614-617 -/
theorem mode_empty_violated : parse [] = .ub := rfl

end Mlibc.Mode
