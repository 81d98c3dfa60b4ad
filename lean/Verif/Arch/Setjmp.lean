import Verif.Base

/-
C97: setjmp and longjmp on every architecture.

Code: options/internal/{x86_64,x86,aarch64,riscv64,loongarch64,m68k}/setjmp.S, all of it except the m68k path of sigsetjmp, and options/ansi/generic/stdlib.cpp
`__sigsetjmp`, `siglongjmp` L62-74. The assembly is a list of instructions of a small machine: registers by name, memory by byte. Words are stored with the
low byte first on all of them (m68k is the other way round; nothing depends on it). Addresses do not wrap around. An instruction is modelled from the manual
of the processor.
-/
namespace Mlibc.Setjmp

/-- Registers and memory. -/
structure St where
  r : String → Nat
  m : Nat → Nat

def St.set (s : St) (d : String) (v : Nat) : St := { s with r := fun x => if x = d then v else s.r x }

/-- `w` bytes at `a`, low byte first. -/
def store (w : Nat) (m : Nat → Nat) (a v : Nat) : Nat → Nat := fun x => if a ≤ x ∧ x < a + w then v / 256 ^ (x - a) % 256 else m x

def load : Nat → (Nat → Nat) → Nat → Nat
  | 0, _, _ => 0
  | n + 1, m, a => m a + 256 * load n m (a + 1)

/-- The instructions that occur in the files. -/
inductive Instr where
  | st (r base : String) (off : Nat)        -- store a word
  | ld (r base : String) (off : Nat)        -- load a word
  | clr32 (base : String) (off : Nat)       -- store 32 bits of zeros
  | mov (d a : String)
  | li (d : String) (v : Nat)
  | lea (d base : String) (off : Nat)
  | inc (d : String)
  | add (d a b : String)
  | seqz (d a : String)                     -- 1 if zero, else 0
  | csinc (d a : String)                    -- the low 32 bits, or 1 if they are zero
  | bnz (r : String) (n : Nat)              -- skip `n` instructions if not zero
  | movm (a : String) (i : Nat) (b : String) (j : Nat)  -- a word from memory at a + i to memory at b + j
  | jmpr (r : String)
  | jmpm (base : String) (off : Nat)        -- jump to the address in memory
  | ret (sp : String)                       -- pop the address from the stack and jump there
  | tail                                    -- jump to __sigsetjmp

/-- How a function ends. -/
inductive Out where
  | jump (to' : Nat) (s : St)
  | sig (s : St)
  | stuck

/-- The machine; the first argument after the size of a word is the number of instructions to skip. -/
def exec (w : Nat) : Nat → List Instr → St → Out
  | _, [], _ => .stuck
  | k + 1, _ :: is, s => exec w k is s
  | 0, .st r b o :: is, s => exec w 0 is { s with m := store w s.m (s.r b + o) (s.r r) }
  | 0, .ld r b o :: is, s => exec w 0 is (s.set r (load w s.m (s.r b + o)))
  | 0, .clr32 b o :: is, s => exec w 0 is { s with m := store 4 s.m (s.r b + o) 0 }
  | 0, .mov d a :: is, s => exec w 0 is (s.set d (s.r a))
  | 0, .li d v :: is, s => exec w 0 is (s.set d v)
  | 0, .lea d b o :: is, s => exec w 0 is (s.set d ((s.r b + o) % 256 ^ w))
  | 0, .inc d :: is, s => exec w 0 is (s.set d ((s.r d + 1) % 256 ^ w))
  | 0, .add d a b :: is, s => exec w 0 is (s.set d ((s.r a + s.r b) % 256 ^ w))
  | 0, .seqz d a :: is, s => exec w 0 is (s.set d (if s.r a = 0 then 1 else 0))
  | 0, .csinc d a :: is, s => exec w 0 is (s.set d (if s.r a % 2 ^ 32 = 0 then 1 else s.r a % 2 ^ 32))
  | 0, .bnz r n :: is, s => if s.r r = 0 then exec w 0 is s else exec w n is s
  | 0, .movm a i b j :: is, s => exec w 0 is { s with m := store w s.m (s.r b + j) (load w s.m (s.r a + i)) }
  | 0, .jmpr r :: _, s => .jump (s.r r) s
  | 0, .jmpm b o :: _, s => .jump (load w s.m (s.r b + o)) s
  | 0, .ret p :: _, s => .jump (load w s.m (s.r p)) (s.set p (s.r p + w))
  | 0, .tail :: _, s => .sig s

/-! ### The functions -/

/-- setjmp and __setjmp. x86_64/setjmp.S L4-33 -/
def setjmpX64 : List Instr :=
  [.li "rdx" 0, .st "rbx" "rdi" 0, .st "rbp" "rdi" 8, .st "r12" "rdi" 16, .st "r13" "rdi" 24, .st "r14" "rdi" 32,
   .st "r15" "rdi" 40, .lea "rax" "rsp" 8, .st "rax" "rdi" 48, .ld "rax" "rsp" 0, .st "rax" "rdi" 56, .bnz "rdx" 3,
   .clr32 "rdi" 0x40, .li "rax" 0, .ret "rsp", .tail]

/-- sigsetjmp and __setjmp. x86_64/setjmp.S L4-24, L37-39 -/
def sigsetjmpX64 : List Instr :=
  [.li "rdx" 1, .st "rbx" "rdi" 0, .st "rbp" "rdi" 8, .st "r12" "rdi" 16, .st "r13" "rdi" 24, .st "r14" "rdi" 32,
   .st "r15" "rdi" 40, .lea "rax" "rsp" 8, .st "rax" "rdi" 48, .ld "rax" "rsp" 0, .st "rax" "rdi" 56, .bnz "rdx" 3,
   .clr32 "rdi" 0x40, .li "rax" 0, .ret "rsp", .tail]

/-- longjmp. x86_64/setjmp.S L45-60 -/
def longjmpX64 : List Instr :=
  [.ld "rbx" "rdi" 0, .ld "rbp" "rdi" 8, .ld "r12" "rdi" 16, .ld "r13" "rdi" 24, .ld "r14" "rdi" 32, .ld "r15" "rdi" 40,
   .mov "rax" "rsi", .bnz "rax" 1, .inc "rax", .ld "rsp" "rdi" 48, .jmpm "rdi" 0x38]

/-- setjmp and __setjmp. x86/setjmp.S L6-34 -/
def setjmpX86 : List Instr :=
  [.li "edx" 0, .ld "eax" "esp" 4, .st "ebx" "eax" 0, .st "ebp" "eax" 4, .st "esi" "eax" 8, .st "edi" "eax" 12,
   .lea "ecx" "esp" 4, .st "ecx" "eax" 16, .ld "ecx" "esp" 0, .st "ecx" "eax" 20, .bnz "edx" 3, .clr32 "eax" 0x18,
   .li "eax" 0, .ret "esp", .tail]

/-- sigsetjmp and __setjmp. x86/setjmp.S L6-25, L38-40 -/
def sigsetjmpX86 : List Instr :=
  [.li "edx" 1, .ld "eax" "esp" 4, .st "ebx" "eax" 0, .st "ebp" "eax" 4, .st "esi" "eax" 8, .st "edi" "eax" 12,
   .lea "ecx" "esp" 4, .st "ecx" "eax" 16, .ld "ecx" "esp" 0, .st "ecx" "eax" 20, .bnz "edx" 3, .clr32 "eax" 0x18,
   .li "eax" 0, .ret "esp", .tail]

/-- longjmp; `cmp $1, %eax` and `adc $0, %eax` add one to 0 only. x86/setjmp.S L46-58 -/
def longjmpX86 : List Instr :=
  [.ld "ecx" "esp" 4, .ld "ebx" "ecx" 0, .ld "ebp" "ecx" 4, .ld "esi" "ecx" 8, .ld "edi" "ecx" 12, .ld "eax" "esp" 8,
   .bnz "eax" 1, .inc "eax", .ld "esp" "ecx" 16, .jmpm "ecx" 0x14]

/-- setjmp and __setjmp; a pair is two stores. aarch64/setjmp.S L9-28, L36-39 -/
def setjmpArm : List Instr :=
  [.li "x2" 0, .st "x19" "x0" 0, .st "x20" "x0" 8, .st "x21" "x0" 16, .st "x22" "x0" 24, .st "x23" "x0" 32,
   .st "x24" "x0" 40, .st "x25" "x0" 48, .st "x26" "x0" 56, .st "x27" "x0" 64, .st "x28" "x0" 72, .st "x29" "x0" 80,
   .st "x30" "x0" 88, .mov "x4" "sp", .st "x4" "x0" 96, .st "d8" "x0" 112, .st "d9" "x0" 120, .st "d10" "x0" 128,
   .st "d11" "x0" 136, .st "d12" "x0" 144, .st "d13" "x0" 152, .st "d14" "x0" 160, .st "d15" "x0" 168, .bnz "x2" 3,
   .clr32 "x0" 176, .li "x0" 0, .jmpr "x30", .tail]

/-- sigsetjmp and __setjmp. aarch64/setjmp.S L9-30, L43-45 -/
def sigsetjmpArm : List Instr :=
  [.li "x2" 1, .st "x19" "x0" 0, .st "x20" "x0" 8, .st "x21" "x0" 16, .st "x22" "x0" 24, .st "x23" "x0" 32,
   .st "x24" "x0" 40, .st "x25" "x0" 48, .st "x26" "x0" 56, .st "x27" "x0" 64, .st "x28" "x0" 72, .st "x29" "x0" 80,
   .st "x30" "x0" 88, .mov "x4" "sp", .st "x4" "x0" 96, .st "d8" "x0" 112, .st "d9" "x0" 120, .st "d10" "x0" 128,
   .st "d11" "x0" 136, .st "d12" "x0" 144, .st "d13" "x0" 152, .st "d14" "x0" 160, .st "d15" "x0" 168, .bnz "x2" 3,
   .clr32 "x0" 176, .li "x0" 0, .jmpr "x30", .tail]

/-- longjmp. aarch64/setjmp.S L51-69 -/
def longjmpArm : List Instr :=
  [.ld "x19" "x0" 0, .ld "x20" "x0" 8, .ld "x21" "x0" 16, .ld "x22" "x0" 24, .ld "x23" "x0" 32, .ld "x24" "x0" 40,
   .ld "x25" "x0" 48, .ld "x26" "x0" 56, .ld "x27" "x0" 64, .ld "x28" "x0" 72, .ld "x29" "x0" 80, .ld "x30" "x0" 88,
   .ld "x4" "x0" 96, .mov "sp" "x4", .ld "d8" "x0" 112, .ld "d9" "x0" 120, .ld "d10" "x0" 128, .ld "d11" "x0" 136,
   .ld "d12" "x0" 144, .ld "d13" "x0" 152, .ld "d14" "x0" 160, .ld "d15" "x0" 168, .csinc "x0" "x1", .jmpr "x30"]

/-- setjmp and __setjmp. riscv64/setjmp.S L6-36, L45-49 -/
def setjmpRiscv : List Instr :=
  [.li "a1" 0, .li "a2" 0, .st "ra" "a0" 0, .st "s0" "a0" 8, .st "s1" "a0" 16, .st "s2" "a0" 24,
   .st "s3" "a0" 32, .st "s4" "a0" 40, .st "s5" "a0" 48, .st "s6" "a0" 56, .st "s7" "a0" 64, .st "s8" "a0" 72,
   .st "s9" "a0" 80, .st "s10" "a0" 88, .st "s11" "a0" 96, .st "sp" "a0" 104, .st "fs0" "a0" 112, .st "fs1" "a0" 120,
   .st "fs2" "a0" 128, .st "fs3" "a0" 136, .st "fs4" "a0" 144, .st "fs5" "a0" 152, .st "fs6" "a0" 160, .st "fs7" "a0" 168,
   .st "fs8" "a0" 176, .st "fs9" "a0" 184, .st "fs10" "a0" 192, .st "fs11" "a0" 200, .bnz "a2" 3, .clr32 "a0" 208,
   .li "a0" 0, .jmpr "ra", .tail]

/-- sigsetjmp and __setjmp. riscv64/setjmp.S L6-39, L53-55 -/
def sigsetjmpRiscv : List Instr :=
  [.li "a2" 1, .st "ra" "a0" 0, .st "s0" "a0" 8, .st "s1" "a0" 16, .st "s2" "a0" 24, .st "s3" "a0" 32,
   .st "s4" "a0" 40, .st "s5" "a0" 48, .st "s6" "a0" 56, .st "s7" "a0" 64, .st "s8" "a0" 72, .st "s9" "a0" 80,
   .st "s10" "a0" 88, .st "s11" "a0" 96, .st "sp" "a0" 104, .st "fs0" "a0" 112, .st "fs1" "a0" 120, .st "fs2" "a0" 128,
   .st "fs3" "a0" 136, .st "fs4" "a0" 144, .st "fs5" "a0" 152, .st "fs6" "a0" 160, .st "fs7" "a0" 168, .st "fs8" "a0" 176,
   .st "fs9" "a0" 184, .st "fs10" "a0" 192, .st "fs11" "a0" 200, .bnz "a2" 3, .clr32 "a0" 208, .li "a0" 0,
   .jmpr "ra", .tail]

/-- longjmp. riscv64/setjmp.S L61-91 -/
def longjmpRiscv : List Instr :=
  [.ld "ra" "a0" 0, .ld "s0" "a0" 8, .ld "s1" "a0" 16, .ld "s2" "a0" 24, .ld "s3" "a0" 32, .ld "s4" "a0" 40,
   .ld "s5" "a0" 48, .ld "s6" "a0" 56, .ld "s7" "a0" 64, .ld "s8" "a0" 72, .ld "s9" "a0" 80, .ld "s10" "a0" 88,
   .ld "s11" "a0" 96, .ld "sp" "a0" 104, .ld "fs0" "a0" 112, .ld "fs1" "a0" 120, .ld "fs2" "a0" 128, .ld "fs3" "a0" 136,
   .ld "fs4" "a0" 144, .ld "fs5" "a0" 152, .ld "fs6" "a0" 160, .ld "fs7" "a0" 168, .ld "fs8" "a0" 176, .ld "fs9" "a0" 184,
   .ld "fs10" "a0" 192, .ld "fs11" "a0" 200, .seqz "a0" "a1", .add "a0" "a0" "a1", .jmpr "ra"]

/-- setjmp and __setjmp. loongarch64/setjmp.S L6-31, L40-43 -/
def setjmpLoong : List Instr :=
  [.li "t1" 0, .st "ra" "a0" 0, .st "sp" "a0" 8, .st "r21" "a0" 16, .st "fp" "a0" 24, .st "s0" "a0" 32,
   .st "s1" "a0" 40, .st "s2" "a0" 48, .st "s3" "a0" 56, .st "s4" "a0" 64, .st "s5" "a0" 72, .st "s6" "a0" 80,
   .st "s7" "a0" 88, .st "s8" "a0" 96, .st "fs0" "a0" 104, .st "fs1" "a0" 112, .st "fs2" "a0" 120, .st "fs3" "a0" 128,
   .st "fs4" "a0" 136, .st "fs5" "a0" 144, .st "fs6" "a0" 152, .st "fs7" "a0" 160, .bnz "t1" 3, .clr32 "a0" 168,
   .li "a0" 0, .jmpr "ra", .tail]

/-- sigsetjmp and __setjmp. loongarch64/setjmp.S L6-34, L47-49 -/
def sigsetjmpLoong : List Instr :=
  [.li "t1" 1, .st "ra" "a0" 0, .st "sp" "a0" 8, .st "r21" "a0" 16, .st "fp" "a0" 24, .st "s0" "a0" 32,
   .st "s1" "a0" 40, .st "s2" "a0" 48, .st "s3" "a0" 56, .st "s4" "a0" 64, .st "s5" "a0" 72, .st "s6" "a0" 80,
   .st "s7" "a0" 88, .st "s8" "a0" 96, .st "fs0" "a0" 104, .st "fs1" "a0" 112, .st "fs2" "a0" 120, .st "fs3" "a0" 128,
   .st "fs4" "a0" 136, .st "fs5" "a0" 144, .st "fs6" "a0" 152, .st "fs7" "a0" 160, .bnz "t1" 3, .clr32 "a0" 168,
   .li "a0" 0, .jmpr "ra", .tail]

/-- longjmp. loongarch64/setjmp.S L55-80 -/
def longjmpLoong : List Instr :=
  [.ld "ra" "a0" 0, .ld "sp" "a0" 8, .ld "r21" "a0" 16, .ld "fp" "a0" 24, .ld "s0" "a0" 32, .ld "s1" "a0" 40,
   .ld "s2" "a0" 48, .ld "s3" "a0" 56, .ld "s4" "a0" 64, .ld "s5" "a0" 72, .ld "s6" "a0" 80, .ld "s7" "a0" 88,
   .ld "s8" "a0" 96, .ld "fs0" "a0" 104, .ld "fs1" "a0" 112, .ld "fs2" "a0" 120, .ld "fs3" "a0" 128, .ld "fs4" "a0" 136,
   .ld "fs5" "a0" 144, .ld "fs6" "a0" 152, .ld "fs7" "a0" 160, .seqz "a0" "a1", .add "a0" "a0" "a1", .jmpr "ra"]

/-- setjmp and __setjmp; `movem` is a sequence of moves, %a7 is the stack pointer. m68k/setjmp.S L4-13, L28-31 -/
def setjmpM68k : List Instr :=
  [.li "d0" 0, .ld "a0" "sp" 4, .st "d2" "a0" 0, .st "d3" "a0" 4, .st "d4" "a0" 8, .st "d5" "a0" 12,
   .st "d6" "a0" 16, .st "d7" "a0" 20, .st "a2" "a0" 24, .st "a3" "a0" 28, .st "a4" "a0" 32, .st "a5" "a0" 36,
   .st "a6" "a0" 40, .st "sp" "a0" 44, .movm "sp" 0 "a0" 48, .bnz "d0" 3, .clr32 "a0" 56, .li "d0" 0,
   .ret "sp", .tail]

/-- longjmp. m68k/setjmp.S L43-54 -/
def longjmpM68k : List Instr :=
  [.ld "a0" "sp" 4, .ld "d0" "sp" 8, .bnz "d0" 1, .li "d0" 1, .ld "d2" "a0" 0, .ld "d3" "a0" 4,
   .ld "d4" "a0" 8, .ld "d5" "a0" 12, .ld "d6" "a0" 16, .ld "d7" "a0" 20, .ld "a2" "a0" 24, .ld "a3" "a0" 28,
   .ld "a4" "a0" 32, .ld "a5" "a0" 36, .ld "a6" "a0" 40, .ld "sp" "a0" 44, .movm "a0" 48 "sp" 0, .ret "sp"]
/-! ### Specification -/

/-- The calling convention of an architecture, from its ABI document. -/
structure Abi where
  /-- bytes in a word -/
  w : Nat
  /-- registers that keep their values over a call -/
  saved : List String
  sp : String
  result : String
  /-- the first argument, a pointer -/
  arg0 : St → Nat
  /-- the bits of the second argument, an int -/
  arg1 : St → Nat → Prop
  /-- where the function returns to, and the stack pointer then -/
  ret : St → Nat
  spAfter : St → Nat
  /-- bytes of return address and arguments on the stack, for one argument and for two -/
  frame : Nat
  frame2 : Nat
  /-- bytes of the registers in jmp_buf; the rest of it follows -/
  size : Nat
  /-- bytes below the stack pointer that longjmp may use -/
  scratch : Nat := 0

/-- A call with its arguments: registers hold words, and the buffer is not where the return address and the arguments are. -/
structure Call (abi : Abi) (frame : Nat) (s : St) (buf : Nat) : Prop where
  arg : abi.arg0 s = buf
  word : ∀ r, s.r r < 256 ^ abi.w
  bytes : ∀ x, s.m x < 256
  apart : s.r abi.sp + frame ≤ buf ∨ buf + abi.size + 4 ≤ s.r abi.sp
  room : abi.spAfter s < 256 ^ abi.w

/-- longjmp, called in whatever state, with the registers in the buffer as they are in the memory `m`, returns from the call that was made in state `s`: to
the same place, with the same stack pointer and saved registers, and the value of its argument, or 1 for 0. -/
def Back (abi : Abi) (longjmp : List Instr) (s : St) (buf : Nat) (m : Nat → Nat) : Prop :=
  ∀ s2 val, (∀ x, buf ≤ x → x < buf + abi.size → s2.m x = m x) → abi.arg0 s2 = buf → abi.arg1 s2 val →
    ∃ s3, exec abi.w 0 longjmp s2 = .jump (abi.ret s) s3 ∧ (∀ r ∈ abi.saved, s3.r r = s.r r) ∧ s3.r abi.sp = abi.spAfter s ∧
      s3.r abi.result % 2 ^ 32 = (if val = 0 then 1 else val) ∧
      ∀ x, x + abi.scratch < abi.spAfter s ∨ abi.spAfter s ≤ x → s3.m x = s2.m x

/-- setjmp returns 0 and changes nothing but the buffer, and longjmp returns from the same call again. -/
def Jumps (abi : Abi) (setjmp longjmp : List Instr) : Prop :=
  ∀ s buf, Call abi abi.frame s buf → ∃ s1, exec abi.w 0 setjmp s = .jump (abi.ret s) s1 ∧
    s1.r abi.result = 0 ∧ (∀ r ∈ abi.saved, s1.r r = s.r r) ∧ s1.r abi.sp = abi.spAfter s ∧
    (∀ x, x < buf ∨ buf + abi.size + 4 ≤ x → s1.m x = s.m x) ∧ load 4 s1.m (buf + abi.size) = 0 ∧
    Back abi longjmp s buf s1.m

/-- sigsetjmp calls __sigsetjmp with its own arguments in place of itself, and longjmp returns from the call of sigsetjmp. -/
def SigJumps (abi : Abi) (sigsetjmp longjmp : List Instr) : Prop :=
  ∀ s buf, Call abi abi.frame2 s buf → ∃ s1, exec abi.w 0 sigsetjmp s = .sig s1 ∧
    abi.arg0 s1 = buf ∧ (∀ v, abi.arg1 s v → abi.arg1 s1 v) ∧ abi.ret s1 = abi.ret s ∧ s1.r abi.sp = s.r abi.sp ∧
    (∀ r ∈ abi.saved, s1.r r = s.r r) ∧ (∀ x, x < buf ∨ buf + abi.size ≤ x → s1.m x = s.m x) ∧ Back abi longjmp s buf s1.m

/-- System V ABI for x86-64: an int is in the low half of a register; the high half may have any value. -/
def x64 : Abi where
  w := 8
  saved := ["rbx", "rbp", "r12", "r13", "r14", "r15"]
  sp := "rsp"
  result := "rax"
  arg0 s := s.r "rdi"
  arg1 s v := s.r "rsi" < 2 ^ 64 ∧ v = s.r "rsi" % 2 ^ 32
  ret s := load 8 s.m (s.r "rsp")
  spAfter s := s.r "rsp" + 8
  frame := 8
  frame2 := 8
  size := 64

/-- System V ABI for i386. -/
def x86 : Abi where
  w := 4
  saved := ["ebx", "ebp", "esi", "edi"]
  sp := "esp"
  result := "eax"
  arg0 s := load 4 s.m (s.r "esp" + 4)
  arg1 s v := v = load 4 s.m (s.r "esp" + 8) ∧ v < 2 ^ 32
  ret s := load 4 s.m (s.r "esp")
  spAfter s := s.r "esp" + 4
  frame := 8
  frame2 := 12
  size := 24

/-- Procedure call standard for the Arm 64-bit architecture. -/
def arm : Abi where
  w := 8
  saved := ["x19", "x20", "x21", "x22", "x23", "x24", "x25", "x26", "x27", "x28", "x29", "d8", "d9", "d10", "d11", "d12", "d13", "d14", "d15"]
  sp := "sp"
  result := "x0"
  arg0 s := s.r "x0"
  arg1 s v := v = s.r "x1" % 2 ^ 32
  ret s := s.r "x30"
  spAfter s := s.r "sp"
  frame := 0
  frame2 := 0
  size := 176

/-- RISC-V calling convention: an int is extended with its sign. -/
def riscv : Abi where
  w := 8
  saved := ["s0", "s1", "s2", "s3", "s4", "s5", "s6", "s7", "s8", "s9", "s10", "s11",
    "fs0", "fs1", "fs2", "fs3", "fs4", "fs5", "fs6", "fs7", "fs8", "fs9", "fs10", "fs11"]
  sp := "sp"
  result := "a0"
  arg0 s := s.r "a0"
  arg1 s v := v < 2 ^ 32 ∧ s.r "a1" = if v < 2 ^ 31 then v else 2 ^ 64 - 2 ^ 32 + v
  ret s := s.r "ra"
  spAfter s := s.r "sp"
  frame := 0
  frame2 := 0
  size := 208

/-- LoongArch ELF psABI, LP64D. -/
def loong : Abi where
  w := 8
  saved := ["fp", "s0", "s1", "s2", "s3", "s4", "s5", "s6", "s7", "s8", "fs0", "fs1", "fs2", "fs3", "fs4", "fs5", "fs6", "fs7"]
  sp := "sp"
  result := "a0"
  arg0 s := s.r "a0"
  arg1 s v := v < 2 ^ 32 ∧ s.r "a1" = if v < 2 ^ 31 then v else 2 ^ 64 - 2 ^ 32 + v
  ret s := s.r "ra"
  spAfter s := s.r "sp"
  frame := 0
  frame2 := 0
  size := 168

/-- System V ABI for m68k, without floating point registers. -/
def m68k : Abi where
  w := 4
  saved := ["d2", "d3", "d4", "d5", "d6", "d7", "a2", "a3", "a4", "a5", "a6"]
  sp := "sp"
  result := "d0"
  arg0 s := load 4 s.m (s.r "sp" + 4)
  arg1 s v := v = load 4 s.m (s.r "sp" + 8) ∧ v < 2 ^ 32
  ret s := load 4 s.m (s.r "sp")
  spAfter s := s.r "sp" + 4
  frame := 8
  frame2 := 12
  size := 56
  scratch := 4

/-! ### Proofs -/

theorem load_congr (n : Nat) (m m' : Nat → Nat) (a : Nat) (h : ∀ x, a ≤ x → x < a + n → m x = m' x) : load n m a = load n m' a := by
  induction n generalizing a with
  | zero => rfl
  | succ n ih => rw [load, load, h a (by omega) (by omega), ih (a + 1) (fun x h1 h2 => h x (by omega) (by omega))]

theorem load_store (w : Nat) (m : Nat → Nat) (a v : Nat) (hv : v < 256 ^ w) : load w (store w m a v) a = v := by
  have key : ∀ n k, k + n = w → load n (store w m a v) (a + k) = v / 256 ^ k % 256 ^ n := by
    intro n
    induction n with
    | zero => intro k _; simp [load, Nat.mod_one]
    | succ n ih =>
      intro k hk
      have h1 : store w m a v (a + k) = v / 256 ^ k % 256 := by
        unfold store
        rw [if_pos ⟨by omega, by omega⟩, Nat.add_sub_cancel_left]
      rw [load, Nat.add_assoc, ih (k + 1) (by omega), h1, Nat.pow_succ, ← Nat.div_div_eq_div_mul, Nat.pow_succ', Nat.mod_mul]
  have := key w 0 (by omega)
  rw [Nat.add_zero] at this
  rw [this, Nat.pow_zero, Nat.div_one, Nat.mod_eq_of_lt hv]

theorem load_far (n w : Nat) (m : Nat → Nat) (a b v : Nat) (h : a + w ≤ b ∨ b + n ≤ a) : load n (store w m a v) b = load n m b := by
  refine load_congr _ _ _ _ (fun x h1 h2 => ?_)
  unfold store
  rw [if_neg (by omega)]

theorem load_off (n w : Nat) (m : Nat → Nat) (a i j v : Nat) (h : i + w ≤ j ∨ j + n ≤ i) : load n (store w m (a + i) v) (a + j) = load n m (a + j) :=
  load_far _ _ _ _ _ _ (by omega)

theorem load_off0 (n w : Nat) (m : Nat → Nat) (a j v : Nat) (h : w ≤ j) : load n (store w m a v) (a + j) = load n m (a + j) :=
  load_far _ _ _ _ _ _ (by omega)

theorem load_off1 (n w : Nat) (m : Nat → Nat) (a i v : Nat) (h : n ≤ i) : load n (store w m (a + i) v) a = load n m a :=
  load_far _ _ _ _ _ _ (by omega)

theorem load_lt (n : Nat) (m : Nat → Nat) (a : Nat) (h : ∀ x, m x < 256) : load n m a < 256 ^ n := by
  induction n generalizing a with
  | zero => simp [load]
  | succ n ih =>
    have h1 := h a
    have h2 := ih (a + 1)
    rw [load, Nat.pow_succ]
    omega

theorem store_out (w : Nat) (m : Nat → Nat) (a v x : Nat) (h : x < a ∨ a + w ≤ x) : store w m a v x = m x := by
  unfold store
  rw [if_neg (by omega)]

/-- Words stored one after the other. -/
def fill (w : Nat) (a : Nat) : List (Nat × Nat) → (Nat → Nat) → Nat → Nat
  | [], m => m
  | p :: ps, m => fill w a ps (store w m (a + p.1) p.2)

theorem load_fill_out (w : Nat) (a o : Nat) : ∀ (ps : List (Nat × Nat)) (m : Nat → Nat), (∀ p ∈ ps, o + w ≤ p.1) → load w (fill w a ps m) (a + o) = load w m (a + o)
  | [], _, _ => rfl
  | p :: ps, m, h => by
    rw [fill, load_fill_out w a o ps _ (fun q hq => h q (List.mem_cons_of_mem _ hq)), load_far _ _ _ _ _ _ (Or.inr (by have := h p List.mem_cons_self; omega))]

theorem load_fill (w : Nat) (a : Nat) : ∀ (ps : List (Nat × Nat)) (m : Nat → Nat), ps.Pairwise (fun p q => p.1 + w ≤ q.1) → (∀ p ∈ ps, p.2 < 256 ^ w) →
    ∀ p ∈ ps, load w (fill w a ps m) (a + p.1) = p.2
  | [], _, _, _, _, hp => absurd hp (by simp)
  | p :: ps, m, hs, hv, q, hq => by
    rw [List.pairwise_cons] at hs
    rw [fill]
    rcases List.mem_cons.mp hq with rfl | hq
    · rw [load_fill_out w a q.1 ps _ hs.1, load_store _ _ _ _ (hv q List.mem_cons_self)]
    · exact load_fill w a ps _ hs.2 (fun r hr => hv r (List.mem_cons_of_mem _ hr)) q hq

/-- What the buffer holds in any memory that agrees with it. -/
theorem held (w size a : Nat) (m m' : Nat → Nat) (h : ∀ x, a ≤ x → x < a + size → m' x = m x) (ps : List (Nat × Nat))
    (hps : ∀ p ∈ ps, p.1 + w ≤ size ∧ load w m (a + p.1) = p.2) : ∀ p ∈ ps, load w m' (a + p.1) = p.2 := fun p hp => by
  rw [← (hps p hp).2]
  exact load_congr _ _ _ _ (fun x h1 h2 => h x (by omega) (by have := (hps p hp).1; omega))

theorem int_result (v a : Nat) (h : v < 2 ^ 32 ∧ a = if v < 2 ^ 31 then v else 2 ^ 64 - 2 ^ 32 + v) :
    ((if a = 0 then 1 else 0) + a) % 256 ^ 8 % 2 ^ 32 = if v = 0 then 1 else v := by
  obtain ⟨h1, h2⟩ := h
  split at h2 <;> split <;> split <;> omega

/-- Where setjmp puts the registers. -/
def slotsRiscv (s : St) : List (Nat × Nat) :=
  [(0, s.r "ra"), (8, s.r "s0"), (16, s.r "s1"), (24, s.r "s2"), (32, s.r "s3"), (40, s.r "s4"), (48, s.r "s5"), (56, s.r "s6"), (64, s.r "s7"), (72, s.r "s8"), (80, s.r "s9"), (88, s.r "s10"), (96, s.r "s11"), (104, s.r "sp"), (112, s.r "fs0"), (120, s.r "fs1"), (128, s.r "fs2"), (136, s.r "fs3"), (144, s.r "fs4"), (152, s.r "fs5"), (160, s.r "fs6"), (168, s.r "fs7"), (176, s.r "fs8"), (184, s.r "fs9"), (192, s.r "fs10"), (200, s.r "fs11")]

theorem riscv_back (s : St) (buf : Nat) (m : Nat → Nat) (h : ∀ p ∈ slotsRiscv s, load 8 m (buf + p.1) = p.2) : Back riscv longjmpRiscv s buf m := by
  intro s2 val hm ha hv
  have hl := held 8 208 buf m s2.m hm (slotsRiscv s) (fun p hp => ⟨by revert p; simp [slotsRiscv], h p hp⟩)
  simp only [riscv] at ha hv
  simp only [slotsRiscv, List.forall_mem_cons] at hl
  refine ⟨_, by simp only [longjmpRiscv, exec, St.set, if_true, if_false, String.reduceEq, riscv, ha, hl]; rfl, ?_⟩
  refine ⟨by simp [riscv], by simp [riscv], ?_, fun x _ => rfl⟩
  simp only [riscv, if_true, if_false, String.reduceEq]
  exact int_result _ _ hv

theorem riscv_jumps : Jumps riscv setjmpRiscv longjmpRiscv := by
  intro s buf ⟨ha, hw, hby, hap, hr⟩
  simp only [riscv] at ha hw hap hr
  subst ha
  refine ⟨_, by simp only [setjmpRiscv, exec, St.set, if_true, if_false, String.reduceEq, riscv]; rfl, ?_⟩
  refine ⟨by simp [riscv], by simp [riscv], by simp [riscv], ?_, ?_, ?_⟩
  · intro x hx
    simp only [riscv] at hx
    simp (disch := omega) only [store_out]
  · simp only [riscv]; rw [load_store]; decide
  refine riscv_back s _ _ (fun p hp => ?_)
  rw [load_far _ _ _ _ _ _ (Or.inr (by revert p; simp [slotsRiscv]))]
  exact load_fill 8 (s.r "a0") (slotsRiscv s) s.m (by simp [slotsRiscv]) (by simp [slotsRiscv, hw]) p hp

theorem riscv_sig : SigJumps riscv sigsetjmpRiscv longjmpRiscv := by
  intro s buf ⟨ha, hw, hby, hap, hr⟩
  simp only [riscv] at ha hw hap hr
  subst ha
  refine ⟨_, by simp only [sigsetjmpRiscv, exec, St.set, if_true, if_false, String.reduceEq, riscv, Nat.one_ne_zero]; rfl, ?_⟩
  refine ⟨by simp [riscv], by simp [riscv], by simp [riscv], by simp [riscv], by simp [riscv], ?_, ?_⟩
  · intro x hx
    simp only [riscv] at hx
    simp (disch := omega) only [store_out]
  refine riscv_back s _ _ (fun p hp => ?_)
  exact load_fill 8 (s.r "a0") (slotsRiscv s) s.m (by simp [slotsRiscv]) (by simp [slotsRiscv, hw]) p hp

/-- Where setjmp puts the registers. -/
def slotsArm (s : St) : List (Nat × Nat) :=
  [(0, s.r "x19"), (8, s.r "x20"), (16, s.r "x21"), (24, s.r "x22"), (32, s.r "x23"), (40, s.r "x24"), (48, s.r "x25"), (56, s.r "x26"), (64, s.r "x27"), (72, s.r "x28"), (80, s.r "x29"), (88, s.r "x30"), (96, s.r "sp"), (112, s.r "d8"), (120, s.r "d9"), (128, s.r "d10"), (136, s.r "d11"), (144, s.r "d12"), (152, s.r "d13"), (160, s.r "d14"), (168, s.r "d15")]

theorem arm_back (s : St) (buf : Nat) (m : Nat → Nat) (h : ∀ p ∈ slotsArm s, load 8 m (buf + p.1) = p.2) : Back arm longjmpArm s buf m := by
  intro s2 val hm ha hv
  have hl := held 8 176 buf m s2.m hm (slotsArm s) (fun p hp => ⟨by revert p; simp [slotsArm], h p hp⟩)
  simp only [arm] at ha hv
  simp only [slotsArm, List.forall_mem_cons] at hl
  refine ⟨_, by simp only [longjmpArm, exec, St.set, if_true, if_false, String.reduceEq, arm, ha, hl]; rfl, ?_⟩
  refine ⟨by simp [arm], by simp [arm], ?_, fun x _ => rfl⟩
  simp only [arm, if_true, if_false, String.reduceEq]
  subst hv
  split <;> omega

theorem arm_jumps : Jumps arm setjmpArm longjmpArm := by
  intro s buf ⟨ha, hw, hby, hap, hr⟩
  simp only [arm] at ha hw hap hr
  subst ha
  refine ⟨_, by simp only [setjmpArm, exec, St.set, if_true, if_false, String.reduceEq, arm]; rfl, ?_⟩
  refine ⟨by simp [arm], by simp [arm], by simp [arm], ?_, ?_, ?_⟩
  · intro x hx
    simp only [arm] at hx
    simp (disch := omega) only [store_out]
  · simp only [arm]; rw [load_store]; decide
  refine arm_back s _ _ (fun p hp => ?_)
  rw [load_far _ _ _ _ _ _ (Or.inr (by revert p; simp [slotsArm]))]
  exact load_fill 8 (s.r "x0") (slotsArm s) s.m (by simp [slotsArm]) (by simp [slotsArm, hw]) p hp

theorem arm_sig : SigJumps arm sigsetjmpArm longjmpArm := by
  intro s buf ⟨ha, hw, hby, hap, hr⟩
  simp only [arm] at ha hw hap hr
  subst ha
  refine ⟨_, by simp only [sigsetjmpArm, exec, St.set, if_true, if_false, String.reduceEq, arm, Nat.one_ne_zero]; rfl, ?_⟩
  refine ⟨by simp [arm], by simp [arm], by simp [arm], by simp [arm], by simp [arm], ?_, ?_⟩
  · intro x hx
    simp only [arm] at hx
    simp (disch := omega) only [store_out]
  refine arm_back s _ _ (fun p hp => ?_)
  exact load_fill 8 (s.r "x0") (slotsArm s) s.m (by simp [slotsArm]) (by simp [slotsArm, hw]) p hp

/-- Where setjmp puts the registers. -/
def slotsLoong (s : St) : List (Nat × Nat) :=
  [(0, s.r "ra"), (8, s.r "sp"), (16, s.r "r21"), (24, s.r "fp"), (32, s.r "s0"), (40, s.r "s1"), (48, s.r "s2"), (56, s.r "s3"), (64, s.r "s4"), (72, s.r "s5"), (80, s.r "s6"), (88, s.r "s7"), (96, s.r "s8"), (104, s.r "fs0"), (112, s.r "fs1"), (120, s.r "fs2"), (128, s.r "fs3"), (136, s.r "fs4"), (144, s.r "fs5"), (152, s.r "fs6"), (160, s.r "fs7")]

theorem loong_back (s : St) (buf : Nat) (m : Nat → Nat) (h : ∀ p ∈ slotsLoong s, load 8 m (buf + p.1) = p.2) : Back loong longjmpLoong s buf m := by
  intro s2 val hm ha hv
  have hl := held 8 168 buf m s2.m hm (slotsLoong s) (fun p hp => ⟨by revert p; simp [slotsLoong], h p hp⟩)
  simp only [loong] at ha hv
  simp only [slotsLoong, List.forall_mem_cons] at hl
  refine ⟨_, by simp only [longjmpLoong, exec, St.set, if_true, if_false, String.reduceEq, loong, ha, hl]; rfl, ?_⟩
  refine ⟨by simp [loong], by simp [loong], ?_, fun x _ => rfl⟩
  simp only [loong, if_true, if_false, String.reduceEq]
  exact int_result _ _ hv

theorem loong_jumps : Jumps loong setjmpLoong longjmpLoong := by
  intro s buf ⟨ha, hw, hby, hap, hr⟩
  simp only [loong] at ha hw hap hr
  subst ha
  refine ⟨_, by simp only [setjmpLoong, exec, St.set, if_true, if_false, String.reduceEq, loong]; rfl, ?_⟩
  refine ⟨by simp [loong], by simp [loong], by simp [loong], ?_, ?_, ?_⟩
  · intro x hx
    simp only [loong] at hx
    simp (disch := omega) only [store_out]
  · simp only [loong]; rw [load_store]; decide
  refine loong_back s _ _ (fun p hp => ?_)
  rw [load_far _ _ _ _ _ _ (Or.inr (by revert p; simp [slotsLoong]))]
  exact load_fill 8 (s.r "a0") (slotsLoong s) s.m (by simp [slotsLoong]) (by simp [slotsLoong, hw]) p hp

theorem loong_sig : SigJumps loong sigsetjmpLoong longjmpLoong := by
  intro s buf ⟨ha, hw, hby, hap, hr⟩
  simp only [loong] at ha hw hap hr
  subst ha
  refine ⟨_, by simp only [sigsetjmpLoong, exec, St.set, if_true, if_false, String.reduceEq, loong, Nat.one_ne_zero]; rfl, ?_⟩
  refine ⟨by simp [loong], by simp [loong], by simp [loong], by simp [loong], by simp [loong], ?_, ?_⟩
  · intro x hx
    simp only [loong] at hx
    simp (disch := omega) only [store_out]
  refine loong_back s _ _ (fun p hp => ?_)
  exact load_fill 8 (s.r "a0") (slotsLoong s) s.m (by simp [slotsLoong]) (by simp [slotsLoong, hw]) p hp

/-- Where setjmp puts the registers. -/
def slotsX64 (s : St) : List (Nat × Nat) :=
  [(0, s.r "rbx"), (8, s.r "rbp"), (16, s.r "r12"), (24, s.r "r13"), (32, s.r "r14"), (40, s.r "r15"), (48, s.r "rsp" + 8), (56, load 8 s.m (s.r "rsp"))]

/-- x86-64 where the caller clears the high half of the register for the argument 0, as compilers do. -/
def x64c : Abi := { x64 with arg1 := fun s v => x64.arg1 s v ∧ (v = 0 → s.r "rsi" = 0) }

theorem x64_back (s : St) (buf : Nat) (m : Nat → Nat) (h : ∀ p ∈ slotsX64 s, load 8 m (buf + p.1) = p.2) : Back x64c longjmpX64 s buf m := by
  intro s2 val hm ha hv
  have hl := held 8 64 buf m s2.m hm (slotsX64 s) (fun p hp => ⟨by revert p; simp [slotsX64], h p hp⟩)
  simp only [x64c, x64] at ha hv
  simp only [slotsX64, List.forall_mem_cons] at hl
  by_cases hz : s2.r "rsi" = 0
  · refine ⟨_, by simp only [longjmpX64, exec, St.set, if_true, if_false, String.reduceEq, x64c, x64, ha, hl, hz]; rfl, ?_⟩
    refine ⟨by simp [x64c, x64], by simp [x64c, x64], ?_, fun x _ => rfl⟩
    simp only [x64c, x64, if_true, if_false, String.reduceEq]
    rw [hz] at hv
    rw [if_pos (by omega)]
  · refine ⟨_, by simp only [longjmpX64, exec, St.set, if_true, if_false, String.reduceEq, x64c, x64, ha, hl, hz]; rfl, ?_⟩
    refine ⟨by simp [x64c, x64], by simp [x64c, x64], ?_, fun x _ => rfl⟩
    simp only [x64c, x64, if_true, if_false, String.reduceEq]
    rw [if_neg (fun h0 => hz (hv.2 h0)), hv.1.2]

theorem x64_jumps_partial : Jumps x64c setjmpX64 longjmpX64 := by
  intro s buf ⟨ha, hw, hby, hap, hr⟩
  simp only [x64c, x64] at ha hw hap hr
  subst ha
  have he : (s.r "rsp" + 8) % 256 ^ 8 = s.r "rsp" + 8 := Nat.mod_eq_of_lt hr
  refine ⟨_, by simp (disch := omega) only [setjmpX64, exec, St.set, if_true, if_false, String.reduceEq, x64c, x64, he, Nat.add_zero, load_far]; rfl, ?_⟩
  refine ⟨by simp [x64c, x64], by simp [x64c, x64], by simp [x64c, x64], ?_, ?_, ?_⟩
  · intro x hx
    simp only [x64c, x64] at hx
    simp (disch := omega) only [store_out]
  · simp only [x64c, x64]; rw [load_store]; decide
  refine x64_back s _ _ (fun p hp => ?_)
  rw [load_far _ _ _ _ _ _ (Or.inr (by revert p; simp [slotsX64]))]
  exact load_fill 8 (s.r "rdi") (slotsX64 s) s.m (by simp [slotsX64]) (by simp only [slotsX64, List.forall_mem_cons]; exact ⟨hw _, hw _, hw _, hw _, hw _, hw _, hr, load_lt _ _ _ hby, by simp⟩) p hp

theorem x64_sig_partial : SigJumps x64c sigsetjmpX64 longjmpX64 := by
  intro s buf ⟨ha, hw, hby, hap, hr⟩
  simp only [x64c, x64] at ha hw hap hr
  subst ha
  have he : (s.r "rsp" + 8) % 256 ^ 8 = s.r "rsp" + 8 := Nat.mod_eq_of_lt hr
  refine ⟨_, by simp (disch := omega) only [sigsetjmpX64, exec, St.set, if_true, if_false, String.reduceEq, x64c, x64, he, Nat.add_zero, load_far, Nat.one_ne_zero]; rfl, ?_⟩
  refine ⟨by simp [x64c, x64], by simp [x64c, x64], ?_, by simp [x64c, x64], by simp [x64c, x64], ?_, ?_⟩
  · simp (disch := omega) only [x64c, x64, if_true, if_false, String.reduceEq, load_far]
  · intro x hx
    simp only [x64c, x64] at hx
    simp (disch := omega) only [store_out]
  refine x64_back s _ _ (fun p hp => ?_)
  exact load_fill 8 (s.r "rdi") (slotsX64 s) s.m (by simp [slotsX64]) (by simp only [slotsX64, List.forall_mem_cons]; exact ⟨hw _, hw _, hw _, hw _, hw _, hw _, hr, load_lt _ _ _ hby, by simp⟩) p hp

/-- Where setjmp puts the registers. -/
def slotsX86 (s : St) : List (Nat × Nat) :=
  [(0, s.r "ebx"), (4, s.r "ebp"), (8, s.r "esi"), (12, s.r "edi"), (16, s.r "esp" + 4), (20, load 4 s.m (s.r "esp"))]

theorem x86_back (s : St) (buf : Nat) (m : Nat → Nat) (h : ∀ p ∈ slotsX86 s, load 4 m (buf + p.1) = p.2) : Back x86 longjmpX86 s buf m := by
  intro s2 val hm ha hv
  have hl := held 4 24 buf m s2.m hm (slotsX86 s) (fun p hp => ⟨by revert p; simp [slotsX86], h p hp⟩)
  simp only [x86] at ha hv
  simp only [slotsX86, List.forall_mem_cons] at hl
  by_cases hz : val = 0
  · refine ⟨_, by simp only [longjmpX86, exec, St.set, if_true, if_false, String.reduceEq, x86, ha, hl, ← hv.1, hz]; rfl, ?_⟩
    refine ⟨by simp [x86], by simp [x86], ?_, fun x _ => rfl⟩
    simp [x86, hz]
  · refine ⟨_, by simp only [longjmpX86, exec, St.set, if_true, if_false, String.reduceEq, x86, ha, hl, ← hv.1, hz]; rfl, ?_⟩
    refine ⟨by simp [x86], by simp [x86], ?_, fun x _ => rfl⟩
    simp only [x86, if_true, if_false, String.reduceEq]
    rw [if_neg hz, Nat.mod_eq_of_lt hv.2]

theorem x86_jumps : Jumps x86 setjmpX86 longjmpX86 := by
  intro s buf ⟨ha, hw, hby, hap, hr⟩
  simp only [x86] at ha hw hap hr
  have he : (s.r "esp" + 4) % 256 ^ 4 = s.r "esp" + 4 := Nat.mod_eq_of_lt hr
  refine ⟨_, by simp (disch := omega) only [setjmpX86, exec, St.set, if_true, if_false, String.reduceEq, x86, he, ha, Nat.add_zero, load_far]; rfl, ?_⟩
  refine ⟨by simp [x86], by simp [x86], by simp [x86], ?_, ?_, ?_⟩
  · intro x hx
    simp only [x86] at hx
    simp (disch := omega) only [store_out]
  · simp only [x86]; rw [load_store]; decide
  refine x86_back s _ _ (fun p hp => ?_)
  rw [load_far _ _ _ _ _ _ (Or.inr (by revert p; simp [slotsX86]))]
  exact load_fill 4 buf (slotsX86 s) s.m (by simp [slotsX86]) (by simp only [slotsX86, List.forall_mem_cons]; exact ⟨hw _, hw _, hw _, hw _, hr, load_lt _ _ _ hby, by simp⟩) p hp

theorem x86_sig : SigJumps x86 sigsetjmpX86 longjmpX86 := by
  intro s buf ⟨ha, hw, hby, hap, hr⟩
  simp only [x86] at ha hw hap hr
  have he : (s.r "esp" + 4) % 256 ^ 4 = s.r "esp" + 4 := Nat.mod_eq_of_lt hr
  refine ⟨_, by simp (disch := omega) only [sigsetjmpX86, exec, St.set, if_true, if_false, String.reduceEq, x86, he, ha, Nat.add_zero, load_far, Nat.one_ne_zero]; rfl, ?_⟩
  refine ⟨?_, ?_, ?_, by simp [x86], by simp [x86], ?_, ?_⟩
  · simp (disch := omega) only [x86, if_true, if_false, String.reduceEq, load_far]; exact ha
  · intro v hv
    simp (disch := omega) only [x86, if_true, if_false, String.reduceEq, load_far]; exact hv
  · simp (disch := omega) only [x86, if_true, if_false, String.reduceEq, load_far]
  · intro x hx
    simp only [x86] at hx
    simp (disch := omega) only [store_out]
  refine x86_back s _ _ (fun p hp => ?_)
  exact load_fill 4 buf (slotsX86 s) s.m (by simp [slotsX86]) (by simp only [slotsX86, List.forall_mem_cons]; exact ⟨hw _, hw _, hw _, hw _, hr, load_lt _ _ _ hby, by simp⟩) p hp

/-- Where setjmp puts the registers. -/
def slotsM68k (s : St) : List (Nat × Nat) :=
  [(0, s.r "d2"), (4, s.r "d3"), (8, s.r "d4"), (12, s.r "d5"), (16, s.r "d6"), (20, s.r "d7"), (24, s.r "a2"), (28, s.r "a3"), (32, s.r "a4"), (36, s.r "a5"), (40, s.r "a6"), (44, s.r "sp"), (48, load 4 s.m (s.r "sp"))]

theorem m68k_back (s : St) (buf : Nat) (m : Nat → Nat) (h : ∀ p ∈ slotsM68k s, load 4 m (buf + p.1) = p.2) (hr : load 4 s.m (s.r "sp") < 256 ^ 4) :
    Back m68k longjmpM68k s buf m := by
  intro s2 val hm ha hv
  have hl := held 4 56 buf m s2.m hm (slotsM68k s) (fun p hp => ⟨by revert p; simp [slotsM68k], h p hp⟩)
  simp only [m68k] at ha hv
  simp only [slotsM68k, List.forall_mem_cons, Nat.add_zero] at hl
  by_cases hz : val = 0
  · refine ⟨_, by simp only [longjmpM68k, exec, St.set, if_true, if_false, String.reduceEq, m68k, ha, hl, ← hv.1, hz, Nat.add_zero, load_store _ _ _ _ hr]; rfl, ?_⟩
    refine ⟨by simp [m68k], by simp [m68k], ?_, fun x hx => store_out _ _ _ _ _ (by simp only [m68k] at hx; omega)⟩
    simp [m68k, hz]
  · refine ⟨_, by simp only [longjmpM68k, exec, St.set, if_true, if_false, String.reduceEq, m68k, ha, hl, ← hv.1, hz, Nat.add_zero, load_store _ _ _ _ hr]; rfl, ?_⟩
    refine ⟨by simp [m68k], by simp [m68k], ?_, fun x hx => store_out _ _ _ _ _ (by simp only [m68k] at hx; omega)⟩
    simp only [m68k, if_true, if_false, String.reduceEq]
    rw [if_neg hz, Nat.mod_eq_of_lt hv.2]

theorem m68k_jumps_partial : Jumps m68k setjmpM68k longjmpM68k := by
  intro s buf ⟨ha, hw, hby, hap, hr⟩
  simp only [m68k] at ha hw hap hr
  refine ⟨_, by simp (disch := omega) only [setjmpM68k, exec, St.set, if_true, if_false, String.reduceEq, m68k, ha, Nat.add_zero, load_far]; rfl, ?_⟩
  refine ⟨by simp [m68k], by simp [m68k], by simp [m68k], ?_, ?_, ?_⟩
  · intro x hx
    simp only [m68k] at hx
    simp (disch := omega) only [store_out]
  · simp only [m68k]; rw [load_store]; decide
  refine m68k_back s _ _ (fun p hp => ?_) (load_lt _ _ _ hby)
  rw [load_far _ _ _ _ _ _ (Or.inr (by revert p; simp [slotsM68k]))]
  exact load_fill 4 buf (slotsM68k s) s.m (by simp [slotsM68k]) (by simp only [slotsM68k, List.forall_mem_cons]; exact ⟨hw _, hw _, hw _, hw _, hw _, hw _, hw _, hw _, hw _, hw _, hw _, hw _, load_lt _ _ _ hby, by simp⟩) p hp

/-! ### What does not hold -/

/-- A call of setjmp(1000) with the stack at 2000. -/
def startX64 : St := ⟨fun r => if r = "rdi" then 1000 else if r = "rsp" then 2000 else 5, fun _ => 1⟩

theorem startX64_call : Call x64 8 startX64 1000 where
  arg := by simp [x64, startX64]
  word r := by simp only [x64, startX64]; split; · omega
               split <;> omega
  bytes _ := by simp [startX64]
  apart := by simp [x64, startX64]
  room := by simp [x64, startX64]

/-- longjmp(env, 0) can make setjmp return 0: the whole register of the argument is tested, but only its low half is the argument. -/
theorem x64_violated : ¬ Jumps x64 setjmpX64 longjmpX64 := by
  intro h
  obtain ⟨s1, -, -, -, -, -, -, hb⟩ := h startX64 1000 startX64_call
  obtain ⟨s3, he, -, -, hv, -⟩ := hb ⟨fun r => if r = "rdi" then 1000 else if r = "rsi" then 2 ^ 32 else 5, s1.m⟩ 0 (fun _ _ _ => rfl) rfl (by simp [x64])
  simp only [longjmpX64, exec, St.set, if_true, if_false, String.reduceEq, x64, show ¬ 2 ^ 32 = 0 from by decide, Out.jump.injEq] at he
  rw [← he.2] at hv
  simp [x64] at hv

/-- The calling convention of m68k with a floating point unit: %fp2 to %fp7 keep their values over a call. -/
def m68kFpu : Abi := { m68k with saved := m68k.saved ++ ["fp2", "fp3", "fp4", "fp5", "fp6", "fp7"] }

/-- A call of setjmp(1000) with the stack at 2000. -/
def startM68k : St := ⟨fun r => if r = "sp" then 2000 else 5, fun x => if x = 2004 then 232 else if x = 2005 then 3 else 0⟩

theorem startM68k_call : Call m68kFpu 8 startM68k 1000 where
  arg := by decide
  word r := by simp only [m68kFpu, m68k, startM68k]; split <;> omega
  bytes x := by simp only [startM68k]; split; · omega
                split <;> omega
  apart := by simp [m68kFpu, m68k, startM68k]
  room := by simp [m68kFpu, m68k, startM68k]

/-- The floating point registers are not saved. -/
theorem m68k_violated : ¬ Jumps m68kFpu setjmpM68k longjmpM68k := by
  intro h
  obtain ⟨s1, -, -, -, -, hm, -, hb⟩ := h startM68k 1000 startM68k_call
  have h0 : load 4 s1.m 2004 = 1000 := by
    rw [load_congr 4 s1.m startM68k.m 2004 (fun x h1 _ => hm x (Or.inr (by simp only [m68kFpu, m68k]; omega)))]
    decide
  have h8 : load 4 s1.m 2008 = 0 := by
    rw [load_congr 4 s1.m startM68k.m 2008 (fun x h1 _ => hm x (Or.inr (by simp only [m68kFpu, m68k]; omega)))]
    decide
  obtain ⟨s3, he, hs, -⟩ := hb ⟨fun r => if r = "sp" then 2000 else 7, s1.m⟩ 0 (fun _ _ _ => rfl) h0 ⟨h8.symm, by decide⟩
  have hf := hs "fp2" (by decide)
  simp only [longjmpM68k, exec, St.set, if_true, if_false, String.reduceEq, m68kFpu, m68k, Nat.reduceAdd, h8, Out.jump.injEq] at he
  rw [← he.2] at hf
  simp [startM68k] at hf

/-! ### The signal mask -/

/-- The part of sigjmp_buf behind the registers. -/
structure SigBuf (M : Type) where
  savesigs : Int
  set : M

/-- __sigsetjmp with the current mask. The system call succeeds. stdlib.cpp L62-67 -/
def sigsetjmpC {M : Type} (mask : M) (b : SigBuf M) (savesigs : Int) : SigBuf M :=
  if savesigs ≠ 0 then ⟨savesigs, mask⟩ else ⟨savesigs, b.set⟩

/-- setjmp stores 0 for the flag, at the end of the registers; see `Jumps`. x86_64/setjmp.S L19 and the like -/
def setjmpC {M : Type} (b : SigBuf M) : SigBuf M := ⟨0, b.set⟩

/-- siglongjmp up to its call of longjmp: the new mask. stdlib.cpp L70-74 -/
def siglongjmpC {M : Type} (mask : M) (b : SigBuf M) : M := if b.savesigs ≠ 0 then b.set else mask

/-- siglongjmp restores the mask of the time of sigsetjmp iff it was asked to, whatever the mask is now. -/
theorem mask_spec {M : Type} (before now : M) (b : SigBuf M) (savesigs : Int) :
    siglongjmpC now (sigsetjmpC before b savesigs) = if savesigs = 0 then now else before := by
  unfold siglongjmpC sigsetjmpC
  by_cases h : savesigs = 0
  · rw [if_pos h, if_neg (Classical.not_not.mpr h), if_neg (Classical.not_not.mpr h)]
  · rw [if_neg h, if_pos h, if_pos h]

/-- A buffer filled by setjmp leaves the mask alone. -/
theorem mask_setjmp {M : Type} (now : M) (b : SigBuf M) : siglongjmpC now (setjmpC b) = now := by simp [siglongjmpC, setjmpC]

/-! ### The hypotheses can be met -/

example : Call x64c 8 startX64 1000 := ⟨by simp [x64c, x64, startX64], startX64_call.word, startX64_call.bytes, startX64_call.apart, startX64_call.room⟩
example : Call m68k 8 startM68k 1000 := ⟨startM68k_call.arg, startM68k_call.word, startM68k_call.bytes, startM68k_call.apart, startM68k_call.room⟩
/-- A call of longjmp(1000, 0) and one of longjmp(1000, -1). -/
example : x64c.arg1 ⟨fun _ => 0, fun _ => 0⟩ 0 ∧ x64c.arg1 ⟨fun _ => 2 ^ 32 - 1, fun _ => 0⟩ (2 ^ 32 - 1) := by simp [x64c, x64]
example : riscv.arg1 ⟨fun _ => 2 ^ 64 - 1, fun _ => 0⟩ (2 ^ 32 - 1) ∧ arm.arg1 ⟨fun _ => 2 ^ 64 - 1, fun _ => 0⟩ (2 ^ 32 - 1) := by simp [riscv, arm]
def regCall (a0 : String) : St := ⟨fun r => if r = a0 then 1000 else if r = "sp" then 2000 else 5, fun _ => 1⟩
example : Call arm 0 (regCall "x0") 1000 ∧ Call riscv 0 (regCall "a0") 1000 ∧ Call loong 0 (regCall "a0") 1000 := by
  refine ⟨⟨?_, fun r => ?_, fun x => ?_, ?_, ?_⟩, ⟨?_, fun r => ?_, fun x => ?_, ?_, ?_⟩, ⟨?_, fun r => ?_, fun x => ?_, ?_, ?_⟩⟩ <;> simp only [arm, riscv, loong, regCall] <;> (try split) <;> (try split) <;> first | omega | simp_all
example : Call x86 12 ⟨fun r => if r = "esp" then 2000 else 5, startM68k.m⟩ 1000 :=
  ⟨by decide, fun r => by simp only [x86]; split <;> omega, startM68k_call.bytes, Or.inr (by simp [x86]), by simp [x86]⟩
example : siglongjmpC 7 (sigsetjmpC 3 ⟨0, 0⟩ 1) = 3 ∧ siglongjmpC 7 (sigsetjmpC 3 ⟨0, 0⟩ 0) = 7 := by decide

end Mlibc.Setjmp
