import Verif.Regex.Parse

/-!
# Parsing basic regular expressions

Model of the parser of `regcomp` (options/posix/musl-generic-regex/regcomp.c L725-1082) without
`REG_EXTENDED` and without `REG_ICASE`; the functions for brackets and numbers are those of `Parse`.
-/
namespace Mlibc.Regex

/-- regcomp.c L725-747 (`parse_dup` with `ere` 0): the closing brace needs a backslash. -/
def parseDupB (s : List Nat) : Option (Nat × Option Nat × List Nat) :=
  let (min, s) := dupCount s
  let (max, s) := if s.headD 0 = 44 then dupCount s.tail else (min, s)
  match min with
  | none => none
  | some mn =>
    if (match max with | some mx => decide (mx < mn) || decide (mx > 255) | none => false) = true
        ∨ mn > 255 ∨ s.headD 0 ≠ 92 ∨ s.tail.headD 0 ≠ 125 then none
    else some (mn, max, s.tail.tail)

/-- regcomp.c L793-945 (`parse_atom`, basic, case sensitive): the tree, the next position, the rest of the
    text.  `start` is `ctx->start`; like `s` it is the rest of the text from there on, so that `s == ctx->start`
    says that both have the same length.  A back reference (L866-870) is not followed. -/
def parseAtomB (fl : Flags) (start s : List Nat) (pos : Nat) : Except Err (Ast × Nat × List Nat) :=
  match s with
  | [] => .ok (.empty, pos, [])                                   -- L915-917
  | c :: r =>
    if c = 91 then                                                -- L800-801
      match bracket fl r with
      | .error e => .error e
      | .ok (ls, rest) => .ok (.leaf pos ls, pos + 1, rest)
    else if c = 92 then                                           -- L802-876
      match r with
      | [] => .error .eescape
      | d :: r' =>
        match macroChar d, macroBracket d with
        | some m, _ => .ok (.leaf pos [{ lo := m, hi := m }], pos + 1, r')
        | none, some t =>
          match bracket fl t with
          | .error e => .error e
          | .ok (ls, _) => .ok (.leaf pos ls, pos + 1, r')
        | none, none =>
          if d = 98 then .ok (.asrt .wb, pos, r')
          else if d = 66 then .ok (.asrt .nwb, pos, r')
          else if d = 60 then .ok (.asrt .bow, pos, r')
          else if d = 62 then .ok (.asrt .eow, pos, r')
          else if d = 120 then
            if r'.headD 0 = 123 then
              let (v, rest) := hexDigits 8 0 r'.tail
              if rest.headD 0 ≠ 125 then .error .ebrace
              else .ok (.leaf pos [{ lo := v, hi := v }], pos + 1, rest.tail)
            else
              let (v, rest) := hexDigits 2 0 r'
              .ok (.leaf pos [{ lo := v, hi := v }], pos + 1, rest)
          else if d = 123 ∨ d = 43 ∨ d = 63 then .error .badrpt    -- L850-856
          else if d = 124 then .ok (.empty, pos, c :: d :: r')     -- L857-863
          else if 49 ≤ d ∧ d ≤ 57 then .error .backref             -- L866-870
          else .ok (.leaf pos [{ lo := d, hi := d }], pos + 1, r') -- L871-875
    else if c = 46 then                                           -- L877-890
      if fl.newline then
        .ok (.union (.leaf pos [{ lo := 0, hi := 9 }]) (.leaf (pos + 1) [{ lo := 11, hi := 1114111 }]), pos + 2, r)
      else .ok (.leaf pos [{ lo := 0, hi := 1114111 }], pos + 1, r)
    else if c = 94 ∧ s.length = start.length then .ok (.asrt .bol, pos, r)   -- L891-897
    else if c = 36 ∧ ¬ (r ≠ [] ∧ (r.headD 0 ≠ 92 ∨ (r.tail.headD 0 ≠ 41 ∧ r.tail.headD 0 ≠ 124))) then
      .ok (.asrt .eol, pos, r)                                    -- L898-904
    else .ok (.leaf pos [{ lo := c, hi := c }], pos + 1, r)       -- L905-937

/-- The variables of `tre_parse` (regcomp.c L957-965), and `ctx->start`.  `depth` is the length of the
    stack. -/
structure BSt where
  mode : Mode
  s : List Nat
  nunion : Option Node
  nbranch : Option Node
  stack : List (Option Node × Option Node)
  pos : Nat
  start : List Nat
deriving DecidableEq, Repr

/-- regcomp.c L999-1029, basic: the repetition at `s`, if there is one: `none` says that the loop is left.
    The test for `^*` (L1013) is made for `*` only, as `s[-1]` is the backslash otherwise. -/
def repeatB (start s : List Nat) : Option (Except Err (Nat × Option Nat × List Nat)) :=
  let c := s.headD 0
  let d := s.tail.headD 0
  if c = 42 then
    if s.length + 1 = start.length ∧ start.headD 0 = 94 then none
    else some (.ok (0, none, s.tail))
  else if c = 92 ∧ d = 43 then some (.ok (1, none, s.tail.tail))
  else if c = 92 ∧ d = 63 then some (.ok (0, some 1, s.tail.tail))
  else if c = 92 ∧ d = 123 then
    match parseDupB s.tail.tail with
    | none => some (.error .badbr)
    | some r => some (.ok r)
  else none

/-- regcomp.c L968-1081, basic: one passage to the head of the outer loop or to `parse_iter`; the tree and
    `ctx->position` at the end. -/
def bstep (fl : Flags) (st : BSt) : Except Err (BSt ⊕ (Ast × Nat)) :=
  match st.mode with
  | .top =>
    if st.s.headD 0 = 92 ∧ st.s.tail.headD 0 = 40 then            -- L969-981
      .ok (.inl { st with s := st.s.tail.tail, nunion := none, nbranch := none,
                          stack := (st.nunion, st.nbranch) :: st.stack, start := st.s.tail.tail })
    else if st.s.headD 0 = 92 ∧ st.s.tail.headD 0 = 41 then       -- L982-986
      .ok (.inl { st with mode := .iter (.empty, false) })
    else                                                          -- L988-991
      match parseAtomB fl st.start st.s st.pos with
      | .error e => .error e
      | .ok (n, pos, rest) => .ok (.inl { st with mode := .iter (n, false), s := rest, pos := pos })
  | .iter n =>
    match repeatB st.start st.s with                              -- L995-1039
    | some (.error e) => .error e
    | some (.ok (mn, mx, rest)) =>
      .ok (.inl { st with mode := .iter (if mx = some 0 then .empty else .iter n.1 mn mx, false), s := rest })
    | none =>
      let nb := newCat st.nbranch n                               -- L1041
      if st.s.headD 0 = 92 ∧ st.s.tail.headD 0 = 124 then         -- L1042-1056
        .ok (.inl { st with mode := .top, s := st.s.tail.tail, nunion := some (newUnion st.nunion nb),
                            nbranch := none, start := st.s.tail.tail })
      else if st.s.headD 0 = 92 ∧ st.s.tail.headD 0 = 41 then     -- L1060-1078
        match st.stack with
        | [] => .error .eparen
        | (u, b) :: stk =>
          .ok (.inl { st with mode := .iter (marksub (newUnion st.nunion nb)), s := st.s.tail.tail, nunion := u,
                              nbranch := b, stack := stk })
      else if st.s = [] then                                      -- L1066-1075
        match st.stack with
        | [] => .ok (.inr ((marksub (newUnion st.nunion nb)).1, st.pos))
        | _ :: _ => .error .eparen
      else .ok (.inl { st with mode := .top, nbranch := some nb })

/-- regcomp.c L968-1081: the loop. -/
def bloop (fl : Flags) : Nat → BSt → Except Err (Ast × Nat)
  | 0, _ => .error .fuel
  | fuel + 1, st =>
    match bstep fl st with
    | .error e => .error e
    | .ok (.inl st') => bloop fl fuel st'
    | .ok (.inr r) => .ok r

/-- regcomp.c L957-1082 (`tre_parse`, basic).  Three times as many passages as characters are enough. -/
def bparse (fl : Flags) (text : List Nat) : Except Err (Ast × Nat) :=
  bloop fl (3 * text.length + 3)
    { mode := .top, s := text, nunion := none, nbranch := none, stack := [], pos := 0, start := text }

/-- regcomp.c L2681-2846: `regcomp(&preg, text, REG_NOSUB)`, possibly with `REG_NEWLINE`. -/
def bregcomp (fl : Flags) (text : List Nat) : Except Err Tnfa :=
  match bparse fl text with
  | .error e => .error e
  | .ok (t, position) => .ok (compile t position)

end Mlibc.Regex
