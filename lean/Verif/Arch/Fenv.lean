import Verif.Base
import Mathlib.Tactic.IntervalCases

/-
C98: the floating point environment.

Code: options/internal/{x86_64,x86,aarch64,riscv64,loongarch64,m68k}/fenv.S, options/ansi/generic/fenv.cpp and the macros of
options/ansi/include/bits/ansi/fenv.h. The assembly is modelled as functions on the control and status registers, instruction by instruction; registers are
vectors of 32 bits. Instructions are modelled from the manuals of the processors. No exception is unmasked, so raising a flag does not trap. The part of the
environment of the x87 that is neither control nor status word is one opaque value.
-/
namespace Mlibc.Fenv

abbrev W := BitVec 32

/-! ### Specification: what the manuals and the C standard say -/

inductive Exc where
  | invalid | denormal | divbyzero | overflow | underflow | inexact
  deriving DecidableEq, Repr

inductive Mode where
  | nearest | down | up | zero
  deriving DecidableEq, Repr

/-- The functions of fenv.S of one processor, and the macros of fenv.h for it. `none` stands for FE_DFL_ENV. -/
structure Fpu where
  S : Type
  E : Type
  clear : W → S → Int × S
  raise : W → S → Int × S
  test : W → S → W
  setRound : W → S → Int × S
  getRound : S → W
  getEnv : S → E × S
  setEnv : Option E → S → S
  allExcept : W
  const : Mode → W
  /-- the part of an int that fits into a fexcept_t -/
  fexcept : W → W

/-- How the environment is to be seen in the registers. -/
structure View (f : Fpu) where
  /-- the bit of the macro for an exception, if there is one -/
  bit : Exc → Option Nat
  /-- the flag is raised -/
  flag : f.S → Exc → Bool
  /-- all units round this way -/
  mode : f.S → Mode → Prop

/-- The exception is in a set. -/
def View.named {f : Fpu} (v : View f) (x : W) (e : Exc) : Bool := match v.bit e with | some i => x.getLsbD i | none => false

/-- A set of exceptions and nothing else. -/
def View.isSet {f : Fpu} (v : View f) (x : W) : Prop := ∀ i, x.getLsbD i = true → ∃ e, v.bit e = some i

/-- The flags after an operation are those, and the rounding mode is as before. -/
def View.Flags {f : Fpu} (v : View f) (s s' : f.S) (g : Exc → Bool) : Prop := (∀ e, v.flag s' e = g e) ∧ ∀ m, v.mode s m → v.mode s' m

/-- feclearexcept clears the flags in the set. -/
def ClearOk (f : Fpu) (v : View f) : Prop := ∀ x s, v.isSet x → (f.clear x s).1 = 0 ∧ v.Flags s (f.clear x s).2 (fun e => v.flag s e && !v.named x e)

/-- The other functions. -/
structure RestOk (f : Fpu) (v : View f) : Prop where
  raise : ∀ x s, v.isSet x → (f.raise x s).1 = 0 ∧ v.Flags s (f.raise x s).2 (fun e => v.flag s e || v.named x e)
  test : ∀ x s, v.isSet x → v.isSet (f.test x s) ∧ ∀ e, v.named (f.test x s) e = (v.named x e && v.flag s e)
  all : v.isSet f.allExcept ∧ ∀ e, (v.bit e).isSome → v.named f.allExcept e = true
  only : ∀ s e, v.bit e = none → v.flag s e = false
  fits : ∀ x, v.isSet x → f.fexcept x = x
  distinct : ∀ m m', f.const m = f.const m' → m = m'
  setRound : ∀ m s, (f.setRound (f.const m) s).1 = 0 ∧ v.mode (f.setRound (f.const m) s).2 m ∧ ∀ e, v.flag (f.setRound (f.const m) s).2 e = v.flag s e
  getRound : ∀ m s, v.mode s m → f.getRound s = f.const m
  getEnv : ∀ s, v.Flags s (f.getEnv s).2 (v.flag s)
  setEnv : ∀ s m now, v.mode s m → v.mode (f.setEnv (some (f.getEnv s).1) now) m ∧ ∀ e, v.flag (f.setEnv (some (f.getEnv s).1) now) e = v.flag s e
  default : ∀ now, v.mode (f.setEnv none now) .nearest ∧ ∀ e, v.flag (f.setEnv none now) e = false

/-! ### fenv.cpp -/

/-- fegetexceptflag. fenv.cpp L12-15 -/
def fegetexceptflag (f : Fpu) (x : W) (s : f.S) : W := f.fexcept (f.test x s)

/-- feholdexcept. fenv.cpp L17-21 -/
def feholdexcept (f : Fpu) (s : f.S) : f.E × f.S := ((f.getEnv s).1, (f.clear f.allExcept (f.getEnv s).2).2)

/-- fesetexceptflag. fenv.cpp L23-27 -/
def fesetexceptflag (f : Fpu) (fe mask : W) (s : f.S) : f.S := (f.raise (fe &&& mask) (f.clear (~~~fe &&& mask) s).2).2

/-- fesetround. All four macros are defined. fenv.cpp L29-43 -/
def fesetround (f : Fpu) (r : W) (s : f.S) : Int × f.S :=
  if r ≠ f.const .nearest ∧ r ≠ f.const .down ∧ r ≠ f.const .up ∧ r ≠ f.const .zero then (-1, s) else f.setRound r s

/-- feupdateenv. fenv.cpp L45-50 -/
def feupdateenv (f : Fpu) (e : Option f.E) (s : f.S) : f.S := (f.raise (f.test f.allExcept s) (f.setEnv e s)).2

/-! ### The processors -/

/-- x86-64: control and status word of the x87, the rest of its environment, MXCSR. -/
structure X where
  cw : W
  sw : W
  rest : Nat
  mxcsr : W
  deriving DecidableEq

/-- fnclex clears the flags, SF, ES and B. -/
def X.fnclex (s : X) : X := { s with sw := s.sw &&& 0x7f00 }

/-- fnstenv masks all exceptions after it has stored the environment. -/
def X.fnstenv (s : X) : (W × W × Nat) × X := ((s.cw, s.sw, s.rest), { s with cw := s.cw ||| 0x3f })

def X.fldenv (e : W × W × Nat) (s : X) : X := { s with cw := e.1, sw := e.2.1, rest := e.2.2 }

/-- feclearexcept. x86_64/fenv.S L6-23 -/
def clearX64 (x : W) (s : X) : Int × X :=
  let ecx := x &&& 0x3f
  let eax := s.sw
  let s := if eax &&& ecx = 0 then s else s.fnclex
  let tmp := s.mxcsr ||| (eax &&& 0x3f)
  if tmp &&& ecx = 0 then (0, s) else (0, { s with mxcsr := tmp &&& ~~~ecx })

/-- feraiseexcept. x86_64/fenv.S L27-33 -/
def raiseX64 (x : W) (s : X) : Int × X := (0, { s with mxcsr := s.mxcsr ||| (x &&& 0x3f) })

/-- __fesetround; %ch is the second byte. x86_64/fenv.S L38-52 -/
def setRoundX64 (r : W) (s : X) : Int × X :=
  (0, { s with
    cw := (s.cw &&& ~~~(0x0c00 : W)) ||| (r &&& 0xff00)
    mxcsr := (s.mxcsr &&& ~~~(0x6000 : W)) ||| ((r <<< 3) &&& 0xff00) })

/-- fegetround. x86_64/fenv.S L56-62 -/
def getRoundX64 (s : X) : W := (s.mxcsr >>> 3) &&& 0xc00

/-- fegetenv. x86_64/fenv.S L66-70 -/
def getEnvX64 (s : X) : (W × W × Nat × W) × X := (((s.fnstenv).1.1, (s.fnstenv).1.2.1, (s.fnstenv).1.2.2, s.mxcsr), (s.fnstenv).2)

/-- fesetenv. x86_64/fenv.S L74-89 -/
def setEnvX64 : Option (W × W × Nat × W) → X → X
  | some e, s => { s.fldenv (e.1, e.2.1, e.2.2.1) with mxcsr := e.2.2.2 }
  | none, s => { s.fldenv (0x37f, 0, 0xffff) with mxcsr := 0x1f80 }

/-- fetestexcept. x86_64/fenv.S L93-101 -/
def testX64 (x : W) (s : X) : W := (s.sw ||| s.mxcsr) &&& (x &&& 0x3f)

/-- The macros for x86. bits/ansi/fenv.h L19-22 -/
def constX86 : Mode → W
  | .nearest => 0
  | .down => 0x400
  | .up => 0x800
  | .zero => 0xc00

/-- bits/ansi/fenv.h L10-24 -/
def x64 : Fpu where
  S := X
  E := W × W × Nat × W
  clear := clearX64
  raise := raiseX64
  test := testX64
  setRound := setRoundX64
  getRound := getRoundX64
  getEnv := getEnvX64
  setEnv := setEnvX64
  allExcept := 2 ||| 4 ||| 32 ||| 1 ||| 8 ||| 16
  const := constX86
  fexcept x := x &&& 0xffff

/-- 32-bit x86 with (`sse`) or without MXCSR: feclearexcept. x86/fenv.S L9-52 -/
def clearX86 (sse : Bool) (x : W) (s : X) : Int × X :=
  let ecx := x &&& 0x3f
  let eax := s.sw
  if sse then
    let s := if eax &&& ecx = 0 then s else s.fnclex
    let edx := s.mxcsr ||| (eax &&& 0x3f)
    if edx &&& ecx = 0 then (0, s) else (0, { s with mxcsr := edx &&& ~~~ecx })
  else if eax &&& ecx = 0 then (0, s)
  else if (eax &&& ~~~ecx) &&& 0x3f = 0 then
    let e := s.fnstenv.1
    (0, s.fnstenv.2.fldenv (e.1, (e.2.1 &&& ~~~(0xff : W)) ||| ((eax &&& ~~~ecx) &&& 0xff), e.2.2))
  else (0, s.fnclex)

/-- feraiseexcept. x86/fenv.S L56-65 -/
def raiseX86 (x : W) (s : X) : Int × X :=
  let e := s.fnstenv.1
  (0, s.fnstenv.2.fldenv (e.1, e.2.1 ||| (x &&& 0x3f), e.2.2))

/-- __fesetround. x86/fenv.S L70-90 -/
def setRoundX86 (sse : Bool) (r : W) (s : X) : Int × X :=
  let s := { s with cw := (s.cw &&& ~~~(0x0c00 : W)) ||| (r &&& 0xff00) }
  if sse then (0, { s with mxcsr := (s.mxcsr &&& ~~~(0x6000 : W)) ||| ((r <<< 3) &&& 0xff00) }) else (0, s)

/-- fegetround. x86/fenv.S L94-99 -/
def getRoundX86 (s : X) : W := s.cw &&& 0xc00

/-- fegetenv. x86/fenv.S L103-118 -/
def getEnvX86 (sse : Bool) (s : X) : (W × W × Nat) × X :=
  let e := s.fnstenv.1
  (if sse then (e.1, e.2.1 ||| (s.mxcsr &&& 0x3f), e.2.2) else e, s.fnstenv.2)

/-- fesetenv. x86/fenv.S L122-151 -/
def setEnvX86 (sse : Bool) (e : Option (W × W × Nat)) (s : X) : X :=
  let r := match e with
    | some e => (s.fldenv e, e.1)
    | none => (s.fldenv (0x37f, 0, 0xffff), 0)
  if sse then { r.1 with mxcsr := ((r.2 &&& 0xc00) <<< 3) ||| 0x1f80 } else r.1

/-- fetestexcept. x86/fenv.S L155-168 -/
def testX86 (sse : Bool) (x : W) (s : X) : W := (if sse then s.sw ||| s.mxcsr else s.sw) &&& (x &&& 0x3f)

/-- bits/ansi/fenv.h L10-24 -/
def x86 (sse : Bool) : Fpu where
  S := X
  E := W × W × Nat
  clear := clearX86 sse
  raise := raiseX86
  test := testX86 sse
  setRound := setRoundX86 sse
  getRound := getRoundX86
  getEnv := getEnvX86 sse
  setEnv := setEnvX86 sse
  allExcept := 2 ||| 4 ||| 32 ||| 1 ||| 8 ||| 16
  const := constX86
  fexcept x := x &&& 0xffff

/-- aarch64: FPCR and FPSR. -/
structure A where
  fpcr : W
  fpsr : W

/-- The functions of aarch64/fenv.S L4-69 with the macros of bits/ansi/fenv.h L37-50. -/
def arm : Fpu where
  S := A
  E := W × W
  getRound s := s.fpcr &&& 0xc00000
  setRound r s := (0, { s with fpcr := (s.fpcr &&& ~~~(0xc00000 : W)) ||| r })
  test x s := (x &&& 0x1f) &&& s.fpsr
  clear x s := (0, { s with fpsr := s.fpsr &&& ~~~(x &&& 0x1f) })
  raise x s := (0, { s with fpsr := s.fpsr ||| (x &&& 0x1f) })
  getEnv s := ((s.fpcr, s.fpsr), s)
  setEnv e _ := match e with | some e => ⟨e.1, e.2⟩ | none => ⟨0, 0⟩
  allExcept := 31
  const | .nearest => 0 | .up => 0x400000 | .down => 0x800000 | .zero => 0xc00000
  fexcept x := x

/-- The functions of riscv64/fenv.S L6-55 on fcsr, with the macros of bits/ansi/fenv.h L59-73: fflags is its lowest 5 bits, frm the next 3; the others are not
writable. -/
@[reducible] def riscv : Fpu where
  S := W
  E := W
  clear x s := (0, s &&& ~~~(x &&& 0x1f))
  raise x s := (0, s ||| (x &&& 0x1f))
  test x s := (s &&& 0x1f) &&& x
  getRound s := (s >>> 5) &&& 7
  setRound r s := (0, (s &&& ~~~(0xe0 : W)) ||| ((r &&& 7) <<< 5))
  getEnv s := (s, s)
  setEnv e _ := match e with | some e => e &&& 0xff | none => 0
  allExcept := 31
  const | .nearest => 0 | .zero => 1 | .down => 2 | .up => 3
  fexcept x := x

/-- The functions of loongarch64/fenv.S L3-67 on FCSR0, with the macros of bits/ansi/fenv.h L109-126. -/
@[reducible] def loong : Fpu where
  S := W
  E := W
  clear x s := (0, s &&& ~~~(x &&& 0x1f0000))
  raise x s := (0, s ||| (x &&& 0x1f0000))
  test x s := s &&& (x &&& 0x1f0000)
  getRound s := s &&& 0x300
  setRound r s := (0, (s &&& ~~~(0x300 : W)) ||| (r &&& 0x300))
  getEnv s := (s, s)
  setEnv e _ := match e with | some e => e | none => 0
  allExcept := 0x010000 ||| 0x080000 ||| 0x020000 ||| 0x040000 ||| 0x100000
  const | .nearest => 0 | .zero => 0x100 | .up => 0x200 | .down => 0x300
  fexcept x := x

/-- m68k: FPCR, FPSR, FPIAR. -/
structure K where
  fpcr : W
  fpsr : W
  fpiar : W

/-- The words that fegetenv writes, with their offsets. m68k/fenv.S L63-76 -/
def getEnvM68k (s : K) : List (Nat × W) := [(0, s.fpcr), (4, s.fpsr), (8, s.fpiar)]

/-- The functions of m68k/fenv.S L7-111, with the macros of bits/ansi/fenv.h L79-90. -/
def m68k : Fpu where
  S := K
  E := W × W × W
  clear x s := if x &&& ~~~(0xf8 : W) ≠ 0 then (-1, s) else (0, { s with fpsr := ~~~x &&& s.fpsr })
  raise x s := if x &&& ~~~(0xf8 : W) ≠ 0 then (-1, s) else (0, { s with fpsr := s.fpsr ||| x })
  test x s := s.fpsr &&& x
  getRound s := s.fpcr &&& 48
  setRound r s := (0, { s with fpcr := (s.fpcr &&& ~~~(48 : W)) ||| r })
  getEnv s := ((s.fpcr, s.fpsr, s.fpiar), s)
  setEnv e _ := match e with | some e => ⟨e.1, e.2.1, e.2.2⟩ | none => ⟨0, 0, 0⟩
  allExcept := 0xf8
  const | .nearest => 0 | .zero => 16 | .down => 32 | .up => 48
  fexcept x := x

/-! ### The views: where the manuals put flags and modes -/

/-- Two bits of a register, the higher first. -/
def two (w : W) (i : Nat) : Bool × Bool := (w.getLsbD (i + 1), w.getLsbD i)

/-- Intel SDM vol. 1, 8.1.3, 8.1.5, 10.2.3: IE, DE, ZE, OE, UE, PE are bits 0 to 5 of status word and MXCSR; RC is bits 10, 11 of the control word and bits 13,
14 of MXCSR. -/
def intelBit : Exc → Nat
  | .invalid => 0 | .denormal => 1 | .divbyzero => 2 | .overflow => 3 | .underflow => 4 | .inexact => 5

def intelRc : Mode → Bool × Bool
  | .nearest => (false, false) | .down => (false, true) | .up => (true, false) | .zero => (true, true)

/-- The macros FE_INVALID = 1, FE_DENORMAL = 2, FE_DIVBYZERO = 4, FE_OVERFLOW = 8, FE_UNDERFLOW = 16, FE_INEXACT = 32. -/
def intelMacro : Exc → Option Nat
  | .invalid => some 0 | .denormal => some 1 | .divbyzero => some 2 | .overflow => some 3 | .underflow => some 4 | .inexact => some 5

def viewX64 : View x64 where
  bit := intelMacro
  flag := fun (s : X) e => s.sw.getLsbD (intelBit e) || s.mxcsr.getLsbD (intelBit e)
  mode := fun (s : X) m => two s.cw 10 = intelRc m ∧ two s.mxcsr 13 = intelRc m

def viewX86 (sse : Bool) : View (x86 sse) where
  bit := intelMacro
  flag := fun (s : X) e => s.sw.getLsbD (intelBit e) || (sse && s.mxcsr.getLsbD (intelBit e))
  mode := fun (s : X) m => two s.cw 10 = intelRc m ∧ (sse = true → two s.mxcsr 13 = intelRc m)

/-- Arm ARM: FPSR has IOC, DZC, OFC, UFC, IXC in bits 0 to 4; FPCR.RMode is bits 22, 23. The macros: FE_INVALID = 1, FE_DIVBYZERO = 2, FE_OVERFLOW = 4,
FE_UNDERFLOW = 8, FE_INEXACT = 16. -/
def viewArm : View arm where
  bit | .invalid => some 0 | .divbyzero => some 1 | .overflow => some 2 | .underflow => some 3 | .inexact => some 4 | .denormal => none
  flag := fun (s : A) e => match e with
    | .invalid => s.fpsr.getLsbD 0 | .divbyzero => s.fpsr.getLsbD 1 | .overflow => s.fpsr.getLsbD 2 | .underflow => s.fpsr.getLsbD 3
    | .inexact => s.fpsr.getLsbD 4 | .denormal => false
  mode := fun (s : A) m => two s.fpcr 22 = match m with
    | .nearest => (false, false) | .up => (false, true) | .down => (true, false) | .zero => (true, true)

/-- RISC-V: fcsr has NX, UF, OF, DZ, NV in bits 0 to 4 and frm in bits 5 to 7. The macros: FE_INEXACT = 1, FE_UNDERFLOW = 2, FE_OVERFLOW = 4,
FE_DIVBYZERO = 8, FE_INVALID = 16. -/
def viewRiscv : View riscv where
  bit | .inexact => some 0 | .underflow => some 1 | .overflow => some 2 | .divbyzero => some 3 | .invalid => some 4 | .denormal => none
  flag := fun (s : W) e => match e with
    | .inexact => s.getLsbD 0 | .underflow => s.getLsbD 1 | .overflow => s.getLsbD 2 | .divbyzero => s.getLsbD 3 | .invalid => s.getLsbD 4 | .denormal => false
  mode := fun (s : W) m => s.getLsbD 7 = false ∧ two s 5 = match m with
    | .nearest => (false, false) | .zero => (false, true) | .down => (true, false) | .up => (true, true)

/-- LoongArch: FCSR0 has RM in bits 8, 9 and the flags I, U, O, Z, V in bits 16 to 20. The macros: FE_INEXACT = 0x10000, FE_UNDERFLOW = 0x20000,
FE_OVERFLOW = 0x40000, FE_DIVBYZERO = 0x80000, FE_INVALID = 0x100000. -/
def viewLoong : View loong where
  bit | .inexact => some 16 | .underflow => some 17 | .overflow => some 18 | .divbyzero => some 19 | .invalid => some 20 | .denormal => none
  flag := fun (s : W) e => match e with
    | .inexact => s.getLsbD 16 | .underflow => s.getLsbD 17 | .overflow => s.getLsbD 18 | .divbyzero => s.getLsbD 19 | .invalid => s.getLsbD 20 | .denormal => false
  mode := fun (s : W) m => two s 8 = match m with
    | .nearest => (false, false) | .zero => (false, true) | .up => (true, false) | .down => (true, true)

/-- M68000PM: FPSR has the accrued exceptions INEX, DZ, UNFL, OVFL, IOP in bits 3 to 7; FPCR has the rounding mode in bits 4, 5. The macros: FE_INEXACT = 8,
FE_DIVBYZERO = 16, FE_UNDERFLOW = 32, FE_OVERFLOW = 64, FE_INVALID = 128. -/
def viewM68k : View m68k where
  bit | .inexact => some 3 | .divbyzero => some 4 | .underflow => some 5 | .overflow => some 6 | .invalid => some 7 | .denormal => none
  flag := fun (s : K) e => match e with
    | .inexact => s.fpsr.getLsbD 3 | .divbyzero => s.fpsr.getLsbD 4 | .underflow => s.fpsr.getLsbD 5 | .overflow => s.fpsr.getLsbD 6
    | .invalid => s.fpsr.getLsbD 7 | .denormal => false
  mode := fun (s : K) m => two s.fpcr 4 = match m with
    | .nearest => (false, false) | .zero => (false, true) | .down => (true, false) | .up => (true, true)

/-! ### The proofs for the processors -/

theorem bit_all {w : W} {l : List Nat} (h : ∀ i < 32, w.getLsbD i = true → i ∈ l) (i : Nat) (hi : w.getLsbD i = true) : i ∈ l :=
  h i (BitVec.lt_of_getLsbD hi) hi

theorem arm_clear : ClearOk arm viewArm := by
  intro x s hx
  refine ⟨rfl, fun e => ?_, fun m h => ?_⟩
  · cases e <;> simp [arm, viewArm, View.named, Bool.and_comm]
  · simpa [arm, viewArm, two] using h

theorem arm_ok : RestOk arm viewArm where
  raise x s hx := by
    refine ⟨rfl, fun e => ?_, fun m h => ?_⟩
    · cases e <;> simp [arm, viewArm, View.named]
    · simpa [arm, viewArm, two] using h
  test x s h := ⟨fun i hi => h i (by simp [arm] at hi; exact hi.1.1), fun e => by cases e <;> simp [arm, viewArm, View.named, Bool.and_comm]⟩
  all := ⟨fun i hi => by
      have := bit_all (l := [0, 1, 2, 3, 4]) (by decide) i hi
      simp only [List.mem_cons, List.not_mem_nil, or_false] at this
      rcases this with rfl | rfl | rfl | rfl | rfl
      exacts [⟨.invalid, rfl⟩, ⟨.divbyzero, rfl⟩, ⟨.overflow, rfl⟩, ⟨.underflow, rfl⟩, ⟨.inexact, rfl⟩],
    fun e h => by cases e <;> first | rfl | (simp [viewArm] at h)⟩
  only s e h := by cases e <;> simp [viewArm] at h ⊢
  fits x _ := rfl
  distinct m m' h := by cases m <;> cases m' <;> first | rfl | (simp [arm] at h)
  setRound m s := ⟨rfl, by cases m <;> simp [arm, viewArm, two], fun e => by cases e <;> cases m <;> simp [arm, viewArm]⟩
  getRound m s h := by
    refine BitVec.eq_of_getLsbD_eq (fun i hi => ?_)
    cases m <;> simp [viewArm, two] at h <;> simp [arm] <;> interval_cases i <;> simp [h]
  getEnv s := ⟨fun e => rfl, fun m h => h⟩
  setEnv s m now h := ⟨by cases m <;> simpa [arm, viewArm, two] using h, fun e => by cases e <;> simp [arm, viewArm]⟩
  default now := ⟨by simp [arm, viewArm, two], fun e => by cases e <;> simp [arm, viewArm]⟩

theorem riscv_clear : ClearOk riscv viewRiscv := by
  intro x s hx
  refine ⟨rfl, fun e => ?_, fun m h => ?_⟩
  · cases e <;> simp [riscv, viewRiscv, View.named, Bool.and_comm]
  · simpa [riscv, viewRiscv, two] using h

theorem riscv_ok : RestOk riscv viewRiscv where
  raise x s hx := by
    refine ⟨rfl, fun e => ?_, fun m h => ?_⟩
    · cases e <;> simp [riscv, viewRiscv, View.named]
    · simpa [riscv, viewRiscv, two] using h
  test x s h := ⟨fun i hi => h i (by simp [riscv] at hi; exact hi.2), fun e => by cases e <;> simp [riscv, viewRiscv, View.named, Bool.and_comm]⟩
  all := ⟨fun i hi => by
      have := bit_all (l := [0, 1, 2, 3, 4]) (by decide) i hi
      simp only [List.mem_cons, List.not_mem_nil, or_false] at this
      rcases this with rfl | rfl | rfl | rfl | rfl
      exacts [⟨.inexact, rfl⟩, ⟨.underflow, rfl⟩, ⟨.overflow, rfl⟩, ⟨.divbyzero, rfl⟩, ⟨.invalid, rfl⟩],
    fun e h => by cases e <;> first | rfl | (simp [viewRiscv] at h)⟩
  only s e h := by cases e <;> simp [viewRiscv] at h ⊢
  fits x _ := rfl
  distinct m m' h := by cases m <;> cases m' <;> first | rfl | (simp [riscv] at h)
  setRound m s := ⟨rfl, by cases m <;> simp [riscv, viewRiscv, two], fun e => by cases e <;> cases m <;> simp [riscv, viewRiscv]⟩
  getRound m s h := by
    refine BitVec.eq_of_getLsbD_eq (fun i hi => ?_)
    cases m <;> simp [viewRiscv, two] at h <;> simp [riscv] <;> interval_cases i <;> simp [h]
  getEnv s := ⟨fun e => rfl, fun m h => h⟩
  setEnv s m now h := ⟨by cases m <;> simpa [riscv, viewRiscv, two] using h, fun e => by cases e <;> simp [riscv, viewRiscv]⟩
  default now := ⟨by simp [riscv, viewRiscv, two], fun e => by cases e <;> simp [riscv, viewRiscv]⟩

theorem loong_clear : ClearOk loong viewLoong := by
  intro x s hx
  refine ⟨rfl, fun e => ?_, fun m h => ?_⟩
  · cases e <;> simp [loong, viewLoong, View.named, Bool.and_comm]
  · simpa [loong, viewLoong, two] using h

theorem loong_ok : RestOk loong viewLoong where
  raise x s hx := by
    refine ⟨rfl, fun e => ?_, fun m h => ?_⟩
    · cases e <;> simp [loong, viewLoong, View.named]
    · simpa [loong, viewLoong, two] using h
  test x s h := ⟨fun i hi => h i (by simp [loong] at hi; exact hi.2.1), fun e => by cases e <;> simp [loong, viewLoong, View.named, Bool.and_comm]⟩
  all := ⟨fun i hi => by
      have := bit_all (l := [16, 17, 18, 19, 20]) (by decide) i hi
      simp only [List.mem_cons, List.not_mem_nil, or_false] at this
      rcases this with rfl | rfl | rfl | rfl | rfl
      exacts [⟨.inexact, rfl⟩, ⟨.underflow, rfl⟩, ⟨.overflow, rfl⟩, ⟨.divbyzero, rfl⟩, ⟨.invalid, rfl⟩],
    fun e h => by cases e <;> first | rfl | (simp [viewLoong] at h)⟩
  only s e h := by cases e <;> simp [viewLoong] at h ⊢
  fits x _ := rfl
  distinct m m' h := by cases m <;> cases m' <;> first | rfl | (simp [loong] at h)
  setRound m s := ⟨rfl, by cases m <;> simp [loong, viewLoong, two], fun e => by cases e <;> cases m <;> simp [loong, viewLoong]⟩
  getRound m s h := by
    refine BitVec.eq_of_getLsbD_eq (fun i hi => ?_)
    cases m <;> simp [viewLoong, two] at h <;> simp [loong] <;> interval_cases i <;> simp [h]
  getEnv s := ⟨fun e => rfl, fun m h => h⟩
  setEnv s m now h := ⟨by cases m <;> simpa [loong, viewLoong, two] using h, fun e => by cases e <;> simp [loong, viewLoong]⟩
  default now := ⟨by simp [loong, viewLoong, two], fun e => by cases e <;> simp [loong, viewLoong]⟩

theorem m68k_set (x : W) (h : viewM68k.isSet x) : x &&& ~~~(0xf8 : W) = 0 := by
  refine BitVec.eq_of_getLsbD_eq (fun i hi => ?_)
  cases hb : x.getLsbD i with
  | false => simp [hb]
  | true =>
    obtain ⟨e, he⟩ := h i hb
    cases e <;> simp [viewM68k] at he <;> subst he <;> simp

theorem m68k_clear : ClearOk m68k viewM68k := by
  intro x s hx
  have h0 := m68k_set x hx
  have h1 : m68k.clear x s = (0, { s with fpsr := ~~~x &&& s.fpsr }) := if_neg (Classical.not_not.mpr h0)
  rw [h1]
  refine ⟨rfl, fun e => ?_, fun m h => ?_⟩
  · cases e <;> simp [m68k, viewM68k, View.named, Bool.and_comm]
  · simpa [m68k, viewM68k, two] using h

theorem m68k_ok : RestOk m68k viewM68k where
  raise x s hx := by
    have h0 := m68k_set x hx
    have h1 : m68k.raise x s = (0, { s with fpsr := s.fpsr ||| x }) := if_neg (Classical.not_not.mpr h0)
    rw [h1]
    refine ⟨rfl, fun e => ?_, fun m h => ?_⟩
    · cases e <;> simp [m68k, viewM68k, View.named]
    · simpa [m68k, viewM68k, two] using h
  test x s h := ⟨fun i hi => h i (by simp [m68k] at hi; exact hi.2), fun e => by cases e <;> simp [m68k, viewM68k, View.named, Bool.and_comm]⟩
  all := ⟨fun i hi => by
      have := bit_all (l := [3, 4, 5, 6, 7]) (by decide) i hi
      simp only [List.mem_cons, List.not_mem_nil, or_false] at this
      rcases this with rfl | rfl | rfl | rfl | rfl
      exacts [⟨.inexact, rfl⟩, ⟨.divbyzero, rfl⟩, ⟨.underflow, rfl⟩, ⟨.overflow, rfl⟩, ⟨.invalid, rfl⟩],
    fun e h => by cases e <;> first | rfl | (simp [viewM68k] at h)⟩
  only s e h := by cases e <;> simp [viewM68k] at h ⊢
  fits x _ := rfl
  distinct m m' h := by cases m <;> cases m' <;> first | rfl | (simp [m68k] at h)
  setRound m s := ⟨rfl, by cases m <;> simp [m68k, viewM68k, two], fun e => by cases e <;> cases m <;> simp [m68k, viewM68k]⟩
  getRound m s h := by
    refine BitVec.eq_of_getLsbD_eq (fun i hi => ?_)
    cases m <;> simp [viewM68k, two] at h <;> simp [m68k] <;> interval_cases i <;> simp [h]
  getEnv s := ⟨fun e => rfl, fun m h => h⟩
  setEnv s m now h := ⟨by cases m <;> simpa [m68k, viewM68k, two] using h, fun e => by cases e <;> simp [m68k, viewM68k]⟩
  default now := ⟨by simp [m68k, viewM68k, two], fun e => by cases e <;> simp [m68k, viewM68k]⟩

theorem intel_set {x : W} (h : ∀ i, x.getLsbD i = true → ∃ e, intelMacro e = some i) : x &&& 0xffff = x := by
  refine BitVec.eq_of_getLsbD_eq (fun i hi => ?_)
  cases hb : x.getLsbD i with
  | false => simp [hb]
  | true =>
    obtain ⟨e, he⟩ := h i hb
    cases e <;> simp [intelMacro] at he <;> subst he <;> simp [hb]

theorem intel_all : (∀ i, (2 ||| 4 ||| 32 ||| 1 ||| 8 ||| 16 : W).getLsbD i = true → ∃ e, intelMacro e = some i) := fun i hi => by
  have := bit_all (l := [0, 1, 2, 3, 4, 5]) (by decide) i hi
  simp only [List.mem_cons, List.not_mem_nil, or_false] at this
  rcases this with rfl | rfl | rfl | rfl | rfl | rfl
  exacts [⟨.invalid, rfl⟩, ⟨.denormal, rfl⟩, ⟨.divbyzero, rfl⟩, ⟨.overflow, rfl⟩, ⟨.underflow, rfl⟩, ⟨.inexact, rfl⟩]

/-- The flags after the code of feclearexcept for two units. -/
theorem intel_clear (x : W) (s : X) (hf : ∀ i, i < 6 → ((clearX64 x s).2.sw.getLsbD i || (clearX64 x s).2.mxcsr.getLsbD i) =
      ((s.sw.getLsbD i || s.mxcsr.getLsbD i) && !x.getLsbD i)) (e : Exc) :
    viewX64.flag (clearX64 x s).2 e = (viewX64.flag s e && !viewX64.named x e) := by
  cases e <;> exact hf _ (by decide)

theorem clear_bits (x : W) (s : X) (i : Nat) (hi : i < 6) :
    ((clearX64 x s).2.sw.getLsbD i || (clearX64 x s).2.mxcsr.getLsbD i) = ((s.sw.getLsbD i || s.mxcsr.getLsbD i) && !x.getLsbD i) := by
  unfold clearX64 X.fnclex
  by_cases h1 : s.sw &&& (x &&& 0x3f) = 0
  · have g1 := congrArg (fun w : W => w.getLsbD i) h1
    simp only [if_pos h1]
    by_cases h2 : (s.mxcsr ||| (s.sw &&& 0x3f)) &&& (x &&& 0x3f) = 0
    · have g2 := congrArg (fun w : W => w.getLsbD i) h2
      simp only [if_pos h2]
      interval_cases i <;> simp at g1 g2 ⊢ <;> grind
    · simp only [if_neg h2]
      interval_cases i <;> simp at g1 ⊢ <;> grind
  · simp only [if_neg h1]
    by_cases h2 : (s.mxcsr ||| (s.sw &&& 0x3f)) &&& (x &&& 0x3f) = 0
    · have g2 := congrArg (fun w : W => w.getLsbD i) h2
      simp only [if_pos h2]
      interval_cases i <;> simp at g2 ⊢ <;> grind
    · simp only [if_neg h2]
      interval_cases i <;> simp <;> grind

theorem clear_mode (x : W) (s : X) : (clearX64 x s).2.cw = s.cw ∧ two (clearX64 x s).2.mxcsr 13 = two s.mxcsr 13 := by
  unfold clearX64 X.fnclex
  by_cases h1 : s.sw &&& (x &&& 0x3f) = 0
  · simp only [if_pos h1]
    split <;> simp [two]
  · simp only [if_neg h1]
    split <;> simp [two]

theorem clear_ret (x : W) (s : X) : (clearX64 x s).1 = 0 := by
  unfold clearX64
  by_cases h1 : s.sw &&& (x &&& 0x3f) = 0
  · simp only [if_pos h1]; split <;> rfl
  · simp only [if_neg h1]; split <;> rfl

theorem x64_clear : ClearOk x64 viewX64 := fun x s _ =>
  ⟨clear_ret x s, intel_clear x s (clear_bits x s), fun m h => ⟨by have := (clear_mode x s).1; simp only [viewX64, x64] at h ⊢; rw [this]; exact h.1,
    by have := (clear_mode x s).2; simp only [viewX64, x64] at h ⊢; rw [this]; exact h.2⟩⟩

theorem x86_clear : ClearOk (x86 true) (viewX86 true) := fun x s _ =>
  ⟨clear_ret x s, fun e => intel_clear x s (clear_bits x s) e,
   fun m h => ⟨(congrArg (fun w : W => two w 10) (clear_mode x s).1).trans h.1, fun _ => by
    have := (clear_mode x s).2; have h2 := h.2 rfl; exact this.trans h2⟩⟩

theorem x64_ok : RestOk x64 viewX64 where
  raise x s _ := ⟨rfl, fun e => by cases e <;> simp [x64, raiseX64, viewX64, View.named, intelMacro, intelBit, Bool.or_assoc],
    fun m h => by simpa [x64, raiseX64, viewX64, two] using h⟩
  test x s h := ⟨fun i hi => h i (by simp [x64, testX64] at hi; exact hi.2.1), fun e => by
    cases e <;> simp [x64, testX64, viewX64, View.named, intelMacro, intelBit, Bool.and_comm]⟩
  all := ⟨intel_all, fun e _ => by cases e <;> rfl⟩
  only s e h := by cases e <;> simp [viewX64, intelMacro] at h
  fits x h := intel_set h
  distinct m m' h := by cases m <;> cases m' <;> first | rfl | (simp [x64, constX86] at h)
  setRound m s := ⟨rfl, by cases m <;> simp [x64, viewX64, two, setRoundX64, constX86, intelRc], fun e => by
    cases e <;> cases m <;> simp [x64, viewX64, setRoundX64, constX86, intelBit]⟩
  getRound m s h := by
    refine BitVec.eq_of_getLsbD_eq (fun i hi => ?_)
    cases m <;> simp [viewX64, two, intelRc] at h <;> simp [x64, getRoundX64, constX86] <;> interval_cases i <;> simp [h]
  getEnv s := ⟨fun e => rfl, fun m h => by simpa [x64, viewX64, two, getEnvX64, X.fnstenv] using h⟩
  setEnv s m now h := ⟨h, fun e => rfl⟩
  default now := ⟨by simp [x64, viewX64, two, setEnvX64, X.fldenv, intelRc], fun e => by cases e <;> simp [x64, viewX64, setEnvX64, X.fldenv, intelBit]⟩

theorem x86_ok (sse : Bool) : RestOk (x86 sse) (viewX86 sse) where
  raise x s _ := ⟨rfl, fun e => by cases e <;> simp [x86, raiseX86, viewX86, View.named, intelMacro, intelBit, X.fnstenv, X.fldenv] <;> grind,
    fun m h => by simpa [x86, raiseX86, viewX86, two, X.fnstenv, X.fldenv] using h⟩
  test x s h := ⟨fun i hi => h i (by simp [x86, testX86] at hi; exact hi.2.1), fun e => by
    cases sse <;> cases e <;> simp [x86, testX86, viewX86, View.named, intelMacro, intelBit, Bool.and_comm]⟩
  all := ⟨intel_all, fun e _ => by cases sse <;> cases e <;> rfl⟩
  only s e h := by cases e <;> simp [viewX86, intelMacro] at h
  fits x h := intel_set h
  distinct m m' h := by cases m <;> cases m' <;> first | rfl | (simp [x86, constX86] at h)
  setRound m s := ⟨by cases sse <;> rfl, by cases sse <;> cases m <;> simp [x86, viewX86, two, setRoundX86, constX86, intelRc], fun e => by
    cases sse <;> cases e <;> cases m <;> simp [x86, viewX86, setRoundX86, constX86, intelBit]⟩
  getRound m s h := by
    have h := h.1
    refine BitVec.eq_of_getLsbD_eq (fun i hi => ?_)
    cases m <;> simp [two, intelRc] at h <;> simp [x86, getRoundX86, constX86] <;> interval_cases i <;> simp [h]
  getEnv s := ⟨fun e => rfl, fun m h => by simpa [x86, viewX86, two, getEnvX86, X.fnstenv] using h⟩
  setEnv s m now h := by
    cases sse with
    | false => exact ⟨⟨h.1, by simp⟩, fun e => by simp [x86, viewX86, setEnvX86, getEnvX86, X.fnstenv, X.fldenv]⟩
    | true =>
      refine ⟨⟨h.1, fun _ => ?_⟩, fun e => ?_⟩
      · have h1 := h.1
        simpa [x86, setEnvX86, getEnvX86, X.fnstenv, X.fldenv, two] using h1
      · cases e <;> simp [x86, viewX86, setEnvX86, getEnvX86, X.fnstenv, X.fldenv, intelBit]
  default now := by
    cases sse <;> exact ⟨by simp [x86, viewX86, two, setEnvX86, X.fldenv, intelRc], fun e => by cases e <;> simp [x86, viewX86, setEnvX86, X.fldenv, intelBit]⟩

/-- The partial truth without MXCSR: feclearexcept is right if all raised flags, or none of them, are to be cleared. -/
theorem x87_clear_partial (x : W) (s : X) (h : (∀ e, (viewX86 false).flag s e = true → (viewX86 false).named x e = true) ∨
      ∀ e, (viewX86 false).flag s e = true → (viewX86 false).named x e = false) :
    (clearX86 false x s).1 = 0 ∧ (viewX86 false).Flags s (clearX86 false x s).2 (fun e => (viewX86 false).flag s e && !(viewX86 false).named x e) := by
  have hf : ∀ e, (viewX86 false).flag s e = s.sw.getLsbD (intelBit e) := fun e => by simp [viewX86]
  have hn : ∀ e, (viewX86 false).named x e = x.getLsbD (intelBit e) := fun e => by cases e <;> rfl
  by_cases h1 : s.sw &&& (x &&& 0x3f) = 0
  · have he : clearX86 false x s = (0, s) := by simp only [clearX86, Bool.false_eq_true, if_false, if_pos h1]
    rw [he]
    refine ⟨rfl, fun e => ?_, fun m h => h⟩
    have g := congrArg (fun w : W => w.getLsbD (intelBit e)) h1
    refine (hf e).trans (Eq.trans ?_ (congrArg₂ (fun a b => a && !b) (hf e) (hn e)).symm)
    cases e <;> simp [intelBit] at g ⊢ <;> grind
  · have h0 : ∀ e, s.sw.getLsbD (intelBit e) = true → x.getLsbD (intelBit e) = true := by
      rcases h with h | h
      · intro e he
        have := h e
        rw [hf, hn] at this
        exact this he
      · exfalso
        refine h1 (BitVec.eq_of_getLsbD_eq (fun i hi => ?_))
        have g : ∀ e, s.sw.getLsbD (intelBit e) = true → x.getLsbD (intelBit e) = false := fun e he => by
          have := h e
          rw [hf, hn] at this
          exact this he
        have g0 := g .invalid
        have g1 := g .denormal
        have g2 := g .divbyzero
        have g3 := g .overflow
        have g4 := g .underflow
        have g5 := g .inexact
        simp only [intelBit] at g0 g1 g2 g3 g4 g5
        interval_cases i <;> simp at g0 g1 g2 g3 g4 g5 ⊢ <;> grind
    have h2 : (s.sw &&& ~~~(x &&& 0x3f)) &&& 0x3f = 0 := by
      refine BitVec.eq_of_getLsbD_eq (fun i hi => ?_)
      have g0 := h0 .invalid
      have g1 := h0 .denormal
      have g2 := h0 .divbyzero
      have g3 := h0 .overflow
      have g4 := h0 .underflow
      have g5 := h0 .inexact
      simp only [intelBit] at g0 g1 g2 g3 g4 g5
      interval_cases i <;> simp at g0 g1 g2 g3 g4 g5 ⊢ <;> grind
    have he : (clearX86 false x s).1 = 0 ∧ (clearX86 false x s).2.cw = s.cw ∧
        (clearX86 false x s).2.sw = (s.sw &&& ~~~(0xff : W)) ||| ((s.sw &&& ~~~(x &&& 0x3f)) &&& 0xff) := by
      simp only [clearX86, Bool.false_eq_true, if_false, if_neg h1, if_pos h2, X.fnstenv, X.fldenv]
      exact ⟨trivial, trivial, trivial⟩
    refine ⟨he.1, fun e => ?_, fun m hm => ⟨(congrArg (fun w : W => two w 10) he.2.1).trans hm.1, fun h => by simp at h⟩⟩
    have hx : (viewX86 false).flag (clearX86 false x s).2 e = (clearX86 false x s).2.sw.getLsbD (intelBit e) := by simp [viewX86]
    refine hx.trans (Eq.trans ?_ (congrArg₂ (fun a b => a && !b) (hf e) (hn e)).symm)
    rw [he.2.2]
    have := h0 e
    cases e <;> simp [intelBit] at this ⊢

/-! ### The functions of fenv.cpp, on any processor -/

theorem named_and {f : Fpu} {v : View f} (x y : W) (e : Exc) : v.named (x &&& y) e = (v.named x e && v.named y e) := by
  unfold View.named
  cases v.bit e <;> simp

theorem set_and {f : Fpu} {v : View f} (x y : W) (h : v.isSet y) : v.isSet (x &&& y) := fun i hi => h i (by simp at hi; exact hi.2)

section
variable {f : Fpu} {v : View f} (hc : ClearOk f v) (ho : RestOk f v)
include ho

/-- fesetround takes the four modes and nothing else, and changes nothing but the mode. -/
theorem fesetround_spec (r : W) (s : f.S) :
    (∀ m, r = f.const m → (fesetround f r s).1 = 0 ∧ v.mode (fesetround f r s).2 m ∧ f.getRound (fesetround f r s).2 = r ∧
      ∀ e, v.flag (fesetround f r s).2 e = v.flag s e) ∧
    ((∀ m, r ≠ f.const m) → fesetround f r s = (-1, s)) := by
  constructor
  · intro m hm
    have h : fesetround f r s = f.setRound (f.const m) s := by
      unfold fesetround
      rw [if_neg (by cases m <;> simp [hm]), hm]
    rw [h]
    obtain ⟨h1, h2, h3⟩ := ho.setRound m s
    exact ⟨h1, h2, (ho.getRound m _ h2).trans hm.symm, h3⟩
  · intro h
    exact if_pos ⟨h _, h _, h _, h _⟩

/-- fegetexceptflag stores the flags of the set that are raised. -/
theorem fegetexceptflag_spec (x : W) (hx : v.isSet x) (s : f.S) :
    v.isSet (fegetexceptflag f x s) ∧ ∀ e, v.named (fegetexceptflag f x s) e = (v.named x e && v.flag s e) := by
  unfold fegetexceptflag
  rw [ho.fits _ (ho.test x s hx).1]
  exact ho.test x s hx

include hc

/-- fesetexceptflag makes the flags of the mask what they are in the stored value, and leaves the others. -/
theorem fesetexceptflag_spec (fe mask : W) (hm : v.isSet mask) (s : f.S) :
    v.Flags s (fesetexceptflag f fe mask s) (fun e => if v.named mask e then v.named fe e else v.flag s e) := by
  have h1 := hc (~~~fe &&& mask) s (set_and _ _ hm)
  have h2 := ho.raise (fe &&& mask) (f.clear (~~~fe &&& mask) s).2 (set_and _ _ hm)
  refine ⟨fun e => ?_, fun m h => h2.2.2 m (h1.2.2 m h)⟩
  refine (h2.2.1 e).trans ?_
  dsimp only
  rw [h1.2.1 e]
  dsimp only
  rw [named_and, named_and]
  cases hb : v.bit e with
  | none =>
    have hf := ho.only s e hb
    have hn : v.named fe e = false := by simp [View.named, hb]
    simp [hf, hn]
  | some i =>
    have hn : v.named (~~~fe) e = true → v.named fe e = false := by
      simp only [View.named, hb, BitVec.getLsbD_not]
      cases fe.getLsbD i <;> simp
    have hn' : v.named mask e = true → v.named (~~~fe) e = false → v.named fe e = true := by
      simp only [View.named, hb, BitVec.getLsbD_not]
      intro h3 h4
      have := BitVec.lt_of_getLsbD h3
      simpa [this] using h4
    cases h3 : v.named mask e <;> cases h4 : v.named (~~~fe) e <;> cases h5 : v.named fe e <;> simp_all

/-- Storing the flags and setting them again later restores them. -/
theorem fesetexceptflag_fegetexceptflag (x : W) (hx : v.isSet x) (s now : f.S) :
    v.Flags now (fesetexceptflag f (fegetexceptflag f x s) x now) (fun e => if v.named x e then v.flag s e else v.flag now e) := by
  have h := fesetexceptflag_spec hc ho (fegetexceptflag f x s) x hx now
  refine ⟨fun e => (h.1 e).trans ?_, h.2⟩
  dsimp only
  rw [(fegetexceptflag_spec ho x hx s).2 e]
  cases v.named x e <;> simp

/-- feholdexcept clears all flags and keeps the rounding mode; what it saved restores flags and mode. -/
theorem feholdexcept_spec (s : f.S) :
    v.Flags s (feholdexcept f s).2 (fun _ => false) ∧
    ∀ now m, v.mode s m → v.mode (f.setEnv (some (feholdexcept f s).1) now) m ∧ ∀ e, v.flag (f.setEnv (some (feholdexcept f s).1) now) e = v.flag s e := by
  have h1 := ho.getEnv s
  have h2 := hc f.allExcept (f.getEnv s).2 ho.all.1
  refine ⟨⟨fun e => ?_, fun m h => h2.2.2 m (h1.2 m h)⟩, fun now m h => ho.setEnv s m now h⟩
  refine (h2.2.1 e).trans ?_
  dsimp only
  rw [h1.1 e]
  cases hb : v.bit e with
  | none => simp [ho.only s e hb]
  | some i => simp [ho.all.2 e (by simp [hb])]

omit hc in
/-- feupdateenv restores flags and mode of the saved environment and adds the flags that are raised now. -/
theorem feupdateenv_spec (s now : f.S) (m : Mode) (hm : v.mode s m) :
    v.mode (feupdateenv f (some (f.getEnv s).1) now) m ∧ ∀ e, v.flag (feupdateenv f (some (f.getEnv s).1) now) e = (v.flag s e || v.flag now e) := by
  have h1 := ho.test f.allExcept now ho.all.1
  have h2 := ho.setEnv s m now hm
  have h3 := ho.raise (f.test f.allExcept now) (f.setEnv (some (f.getEnv s).1) now) h1.1
  refine ⟨h3.2.2 m h2.1, fun e => ?_⟩
  refine (h3.2.1 e).trans ?_
  dsimp only
  rw [h2.2 e, h1.2 e]
  cases hb : v.bit e with
  | none => simp [ho.only now e hb, View.named, hb]
  | some i => simp [ho.all.2 e (by simp [hb])]

omit hc in
/-- feupdateenv(FE_DFL_ENV) keeps the flags. -/
theorem feupdateenv_default (now : f.S) : v.mode (feupdateenv f none now) .nearest ∧ ∀ e, v.flag (feupdateenv f none now) e = v.flag now e := by
  have h1 := ho.test f.allExcept now ho.all.1
  have h2 := ho.default now
  have h3 := ho.raise (f.test f.allExcept now) (f.setEnv none now) h1.1
  refine ⟨h3.2.2 _ h2.1, fun e => ?_⟩
  refine (h3.2.1 e).trans ?_
  dsimp only
  rw [h2.2 e, h1.2 e]
  cases hb : v.bit e with
  | none => simp [ho.only now e hb]
  | some i => simp [ho.all.2 e (by simp [hb])]

end

/-- Every operation of a program that uses the environment. -/
inductive Op (f : Fpu) where
  | clear (x : W) | raise (x : W) | setRound (r : W) | hold | default

/-- The two units of x86 never come to round differently: from the default environment, every sequence of calls leaves a rounding mode. -/
def step (f : Fpu) (s : f.S) : Op f → f.S
  | .clear x => (f.clear x s).2
  | .raise x => (f.raise x s).2
  | .setRound r => (fesetround f r s).2
  | .hold => (feholdexcept f s).2
  | .default => f.setEnv none s

theorem mode_always {f : Fpu} {v : View f} (hc : ClearOk f v) (ho : RestOk f v) (ops : List (Op f))
    (hx : ∀ x, Op.clear x ∈ ops ∨ Op.raise x ∈ ops → v.isSet x) (s : f.S) (hs : ∃ m, v.mode s m) :
    ∃ m, v.mode (ops.foldl (step f) s) m ∧ f.getRound (ops.foldl (step f) s) = f.const m := by
  induction ops generalizing s with
  | nil => obtain ⟨m, h⟩ := hs; exact ⟨m, h, ho.getRound m _ h⟩
  | cons o os ih =>
    refine ih (fun x h => hx x (h.imp (List.mem_cons_of_mem _) (List.mem_cons_of_mem _))) _ ?_
    obtain ⟨m, h⟩ := hs
    cases o with
    | clear x => exact ⟨m, (hc x s (hx x (Or.inl List.mem_cons_self))).2.2 m h⟩
    | raise x => exact ⟨m, (ho.raise x s (hx x (Or.inr List.mem_cons_self))).2.2 m h⟩
    | setRound r =>
      by_cases hr : ∃ m', r = f.const m'
      · obtain ⟨m', hr⟩ := hr
        exact ⟨m', ((fesetround_spec ho r s).1 m' hr).2.1⟩
      · refine ⟨m, ?_⟩
        show v.mode (fesetround f r s).2 m
        rw [(fesetround_spec ho r s).2 (fun m' h' => hr ⟨m', h'⟩)]
        exact h
    | hold => exact ⟨m, (feholdexcept_spec hc ho s).1.2 m h⟩
    | default => exact ⟨_, (ho.default s).1⟩

/-! ### What does not hold -/

/-- Without MXCSR, clearing one flag clears the others: FE_INVALID is cleared with FE_INEXACT raised. -/
theorem x87_clear_violated : ¬ ClearOk (x86 false) (viewX86 false) := by
  intro h
  have := (h 1 ⟨0x37f, 0x21, 0, 0⟩ (fun i hi => by
    have := bit_all (l := [0]) (by decide) i hi
    simp only [List.mem_cons, List.not_mem_nil, or_false] at this
    exact ⟨.invalid, by rw [this]; rfl⟩)).2.1 .inexact
  revert this
  decide

/-- fegetenv on x86-64 changes the environment if a program has unmasked an exception of the x87: it masks it again. -/
theorem fegetenv_masks_violated : ∃ s : X, (getEnvX64 s).2 ≠ s := ⟨⟨0x37e, 0, 0, 0x1f80⟩, by decide⟩

/-- fegetenv on m68k writes 12 bytes; a fenv_t has 4. bits/ansi/fenv.h L100-104 -/
theorem m68k_overflow_violated (s : K) : ∃ p ∈ getEnvM68k s, 4 ≤ p.1 := ⟨(8, s.fpiar), by simp [getEnvM68k], by simp⟩

/-! ### The hypotheses can be met -/

example : viewX64.isSet 0x3d ∧ ¬ viewX64.isSet 0x40 := by
  refine ⟨fun i hi => ?_, fun h => ?_⟩
  · have := bit_all (l := [0, 2, 3, 4, 5]) (by decide) i hi
    simp only [List.mem_cons, List.not_mem_nil, or_false] at this
    rcases this with rfl | rfl | rfl | rfl | rfl
    exacts [⟨.invalid, rfl⟩, ⟨.divbyzero, rfl⟩, ⟨.overflow, rfl⟩, ⟨.underflow, rfl⟩, ⟨.inexact, rfl⟩]
  · obtain ⟨e, he⟩ := h 6 (by decide)
    cases e <;> simp [viewX64, intelMacro] at he
example : viewX64.mode (⟨0xb7f, 0x21, 0, 0x5f84⟩ : X) .up ∧ (clearX64 1 ⟨0xb7f, 0x21, 0, 0x5f84⟩).2 = ⟨0xb7f, 0, 0, 0x5fa4⟩ := by
  constructor
  · simp [viewX64, two, intelRc]
  · decide
example : (viewX86 false).named 0x3f .inexact = true ∧ (∀ e, (viewX86 false).flag (⟨0x37f, 0x21, 0, 0⟩ : X) e = true → (viewX86 false).named 0x3f e = true) :=
  ⟨by decide, fun e _ => by cases e <;> decide⟩

end Mlibc.Fenv
