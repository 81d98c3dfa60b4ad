import Verif.Base
/-
Model of getopt(): options/internal/generic/getopt.cpp in mode `GetoptMode::Short`
(options/posix/generic/unistd.cpp:521-523). Not modelled: long options, the messages printed on stderr.
-/
namespace Mlibc.Getopt
open Mlibc

/-- A C string without its terminating NUL. -/
abbrev Str := List UInt8

abbrev dash : UInt8 := 45
abbrev colonC : UInt8 := 58
abbrev plus : UInt8 := 43
abbrev question : Int := 63

/-- `s[i]`: the character, NUL at the end, undefined behaviour beyond. -/
def at' (s : Str) (i : Nat) : Res UInt8 :=
  match s[i]? with
  | some c => .ok c
  | none => if i = s.length then .ok 0 else .ub

/-- A `char` converted to `int` (char is signed). -/
def charToInt (c : UInt8) : Int := if c < 128 then c.toNat else (c.toNat : Int) - 256

/-- `strchr(s, c)` as an offset; searching NUL finds the terminator. -/
def strchr (s : Str) (c : UInt8) : Option Nat :=
  match s.findIdx? (· = c) with
  | some i => some i
  | none => if c = 0 then some s.length else none

/-- getopt.cpp:13-20, the static state, together with the argument vector (which getopt permutes). `argc` is the
length of `argv`. A pointer `optarg` is represented by the string it points to. -/
structure State where
  argv : List Str
  optind : Nat := 1
  optarg : Option Str := none
  optopt : UInt8 := 0
  optpos : Nat := 1
  deriving DecidableEq, Repr

/-- getopt.cpp:143-147 `isOptionArg` -/
def isOptionArg (arg : Str) : Bool := arg.head? = some dash ∧ arg ≠ [dash] ∧ arg ≠ [dash, dash]

/-- getopt.cpp:212-319 for mode Short (the loop body always returns). -/
def shortOpt (optstring : Str) (st : State) (arg : Str) : Res (Int × State) := do
  let colon := optstring.head? = some colonC
  let i := st.optpos
  let c ← at' arg i
  match strchr optstring c with
  | some opt =>
    if (← at' optstring (opt + 1)) = colonC then
      let required := (← at' optstring (opt + 2)) ≠ colonC
      let next := st.argv[st.optind + 1]?
      if (← at' arg (i + 1)) ≠ 0 then
        return (charToInt c, { st with optarg := some (arg.drop (i + 1)), optind := st.optind + 1 })
      else if st.optind + 1 < st.argv.length ∧ required ∧ next.bind List.head? ≠ some dash then
        return (charToInt c, { st with optarg := next, optind := st.optind + 2, optpos := 1 })
      else if ¬ required then
        return (charToInt c, { st with optarg := none, optind := st.optind + 1 })
      else
        return (if colon then 58 else question, { st with optpos := 1, optopt := c })
    else if (← at' arg (i + 1)) ≠ 0 then
      return (charToInt c, { st with optpos := st.optpos + 1 })
    else if c ≠ 0 then
      return (charToInt c, { st with optind := st.optind + 1 })
    else
      return (-1, { st with optarg := none })
  | none =>
    return (question, { st with optopt := ← at' arg 1, optind := st.optind + 1 })

/-- getopt.cpp:149-325, the main loop. First argument: bound on the iterations. -/
def mainLoop (optstring : Str) (stopAtFirst : Bool) : Nat → State → Res (Int × State)
  | 0, _ => .ub
  | fuel + 1, st =>
    match st.argv[st.optind]? with
    | none => .ok (-1, { st with optarg := none })
    | some arg =>
      if ¬ isOptionArg arg then
        if arg = [dash, dash] then .ok (-1, { st with optind := st.optind + 1 })
        else if stopAtFirst then .ok (-1, { st with optarg := none })
        else
          match (st.argv.drop st.optind).findIdx? isOptionArg with
          | some k => mainLoop optstring stopAtFirst fuel { st with optind := st.optind + k }
          | none => .ok (-1, { st with optarg := none })
      else shortOpt optstring st arg

/-- getopt.cpp:328-335 `permute`: the shifting loop is given by its result, the moved word inserted at `dest`. -/
def permute (argv : List Str) (dest src : Nat) : Res (List Str) := do
  ensure (src > dest)
  match argv[src]? with
  | none => .ub
  | some tmp => return argv.take dest ++ tmp :: (argv.drop dest).take (src - dest) ++ argv.drop (src + 1)

/-- getopt.cpp:384-386, the loop around `permute`. -/
def permuteLoop (dest src : Nat) : Nat → List Str → Res (List Str)
  | 0, argv => .ok argv
  | n + 1, argv => do permuteLoop dest src n (← permute argv dest src)

/-- getopt.cpp:373, the test for a word to stop at. -/
def looksLikeOption (arg : Str) : Bool := arg.head? = some dash ∧ arg ≠ [dash]

/-- getopt.cpp:345-391 `getopt_common` in mode Short. `posix`: POSIXLY_CORRECT is set in the environment.
`optreset` (a BSD extension) is not modelled. -/
def getopt (posix : Bool) (optstring : Str) (st : State) : Res (Int × State) := do
  let st := if st.optind = 0 then { st with optarg := none, optind := 1, optopt := 0, optpos := 1 } else st
  let skipped := st.optind
  let stop := optstring.head? = some plus ∨ posix
  let k? := (st.argv.drop st.optind).findIdx? looksLikeOption
  let permuting := optstring.head? ≠ some plus ∧ optstring.head? ≠ some dash
  if permuting ∧ k? = none then
    return (-1, { st with optarg := none })
  else
    let st := if permuting then { st with optind := st.optind + k?.getD 0 } else st
    let resumed := st.optind
    let (ret, st) ← mainLoop optstring stop 2 st
    if resumed > skipped then
      let argv ← permuteLoop skipped (st.optind - 1) (st.optind - resumed) st.argv
      return (ret, { st with argv := argv, optind := skipped + (st.optind - resumed) })
    else return (ret, st)

/-- What a program sees after one call. -/
structure Event where
  ret : Int
  optarg : Option Str
  optopt : UInt8
  deriving DecidableEq, Repr

/-- `while ((c = getopt(argc, argv, optstring)) != -1) ...`: the calls made until -1 is returned. The first argument
bounds the number of calls; needing more counts as `ub`. -/
def run (posix : Bool) (optstring : Str) : Nat → State → Res (List Event × State)
  | 0, _ => .ub
  | n + 1, st => do
    let (ret, st) ← getopt posix optstring st
    if ret = -1 then return ([], st)
    else
      let (evs, fin) ← run posix optstring n st
      return (⟨ret, st.optarg, st.optopt⟩ :: evs, fin)

end Mlibc.Getopt
