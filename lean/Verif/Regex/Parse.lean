import Verif.Regex.Model

/-!
# Parsing extended regular expressions

Model of the parser of `regcomp` (options/posix/musl-generic-regex/regcomp.c L500-1082) for
`REG_EXTENDED` without `REG_ICASE`.  The text is a list of characters: `mbtowc` has been applied, and the
terminating zero is the end of the list.
-/
namespace Mlibc.Regex

/-- The error codes the parser returns (options/posix/include/regex.h).  `fuel` is not one of them: it says
    that a loop of the model has not come to an end, which never happens (`parse_halts`); neither is `backref`:
    the text contains a back reference, which the model of basic expressions does not follow. -/
inductive Err | fuel | backref | ectype | eescape | ebrack | eparen | ebrace | badbr | erange | espace | badrpt | ecollate
deriving DecidableEq, Repr

/-- What the parser depends on besides the text: `REG_NEWLINE`, `wctype` (tre.h L82), and what `qsort`
    does with the items of a bracket expression (regcomp.c L654). -/
structure Flags where
  newline : Bool := false
  ctype : List Nat → Nat
  sort : List Lit → List Lit

/-- regcomp.c L558-565: the name of a class, up to the colon; at most 13 characters
    (`CHARCLASS_NAME_MAX` is 14, tre.h L40).  Gives the name and the text behind the colon. -/
def className : Nat → List Nat → Option (List Nat × List Nat)
  | 0, _ => none
  | _ + 1, [] => none
  | n + 1, c :: r =>
    if c = 58 then some ([], r)
    else match className n r with
      | none => none
      | some (a, b) => some (c :: a, b)

/-- regcomp.c L531-611 (`parse_bracket_terms`): `s` is the text, `first` says that `s == start`, `ls` and
    `ng` are the items and the negated classes so far.  Gives both and the text behind the bracket.
    Simplification: the limit of 32768 items (L458) is left out.  `fuel` is at least the length of the
    text. -/
def terms (fl : Flags) (neg : Bool) : Nat → List Nat → Bool → List Lit → List Nat →
    Except Err (List Lit × List Nat × List Nat)
  | 0, _, _, _, _ => .error .fuel
  | fuel + 1, s, first, ls, ng =>
    match s with
    | [] => .error .ebrack                                        -- L542-543
    | c :: r =>
      if c = 93 ∧ first = false then .ok (ls, ng, r)              -- L544-547
      else if c = 45 ∧ first = false ∧ r.headD 0 ≠ 93 ∧ (r.headD 0 ≠ 45 ∨ r.tail.headD 0 = 93) then
        .error .erange                                            -- L548-551
      else if c = 91 ∧ (r.headD 0 = 46 ∨ r.headD 0 = 61) then .error .ecollate   -- L552-554
      else if c = 91 ∧ r.headD 0 = 58 then                        -- L555-570
        match className 14 r.tail with
        | none => .error .ectype
        | some (name, rest) =>
          if fl.ctype name = 0 ∨ rest.headD 0 ≠ 93 then .error .ectype
          else if neg then                                        -- L586-589
            if ng.length ≥ 64 then .error .espace
            else terms fl neg fuel rest.tail false ls (ng ++ [fl.ctype name])
          else                                                    -- L591-597
            terms fl neg fuel rest.tail false
              (ls ++ [{ lo := 0, hi := 1114111, cls := fl.ctype name }]) ng
      else if r.headD 0 = 45 ∧ r.tail.headD 0 ≠ 93 then           -- L574-583
        match r.tail with
        | [] => .error .erange
        | m :: r' =>
          if c > m then .error .erange
          else terms fl neg fuel r' false (ls ++ [{ lo := c, hi := m }]) ng
      else terms fl neg fuel r false (ls ++ [{ lo := c, hi := c }]) ng

/-- regcomp.c L677-701: the items of the complement; the list is sorted and ends with the item
    `TRE_CHAR_MAX + 1`. -/
def complement (nc : List Nat) : List Lit → Nat → List Lit
  | [], _ => []
  | l :: r, negmin =>
    if l.lo ≤ negmin then complement nc r (max (l.hi + 1) negmin)
    else { lo := negmin, hi := l.lo - 1, cls := l.cls, neg := nc } :: complement nc r (l.hi + 1)

/-- regcomp.c L613-708 (`parse_bracket`): `s` is the text behind the opening bracket. -/
def bracket (fl : Flags) (s : List Nat) : Except Err (List Lit × List Nat) :=
  let neg := decide (s.headD 0 = 94)
  let s' := if neg then s.tail else s
  match terms fl neg (s'.length + 1) s' true [] [] with
  | .error e => .error e
  | .ok (ls, ng, rest) =>
    if neg then
      let ls := if fl.newline then ls ++ [{ lo := 10, hi := 10 }] else ls
      .ok (complement ng (fl.sort ls ++ [{ lo := 1114112, hi := 1114112 }]) 0, rest)
    else .ok (ls, rest)

/-- `isdigit` (regcomp.c L713, L719; options/ansi/generic/ctype.cpp), C locale. -/
def isDigit (c : Nat) : Bool := decide (48 ≤ c) && decide (c ≤ 57)

/-- regcomp.c L716-722: the loop of `parse_dup_count`; `n` is the number so far. -/
def dupDigits : List Nat → Nat → Nat × List Nat
  | [], n => (n, [])
  | c :: r, n =>
    if isDigit c = false ∨ n > 255 then (n, c :: r)
    else dupDigits r (10 * n + (c - 48))

/-- regcomp.c L710-723 (`parse_dup_count`): no digit gives -1, here `none`. -/
def dupCount : List Nat → Option Nat × List Nat
  | [] => (none, [])
  | c :: r =>
    if isDigit c = false then (none, c :: r)
    else let (n, rest) := dupDigits r (c - 48); (some n, rest)

/-- regcomp.c L725-747 (`parse_dup`): `max` -1 is `none`. -/
def parseDup (s : List Nat) : Option (Nat × Option Nat × List Nat) :=
  let (min, s) := dupCount s
  let (max, s) := if s.headD 0 = 44 then dupCount s.tail else (min, s)
  match min with
  | none => none
  | some mn =>
    if (match max with | some mx => decide (mx < mn) || decide (mx > 255) | none => false) = true
        ∨ mn > 255 ∨ s.headD 0 ≠ 125 then none
    else some (mn, max, s.tail)

/-- regcomp.c L749-755 (`hexval`). -/
def hexval (c : Nat) : Option Nat :=
  if 48 ≤ c ∧ c < 58 then some (c - 48)
  else if 97 ≤ c ∧ c < 103 then some (c - 87)
  else if 65 ≤ c ∧ c < 71 then some (c - 55)
  else none

/-- regcomp.c L834-839: at most `n` hexadecimal digits. -/
def hexDigits : Nat → Nat → List Nat → Nat × List Nat
  | 0, v, s => (v, s)
  | _ + 1, v, [] => (v, [])
  | n + 1, v, c :: r =>
    if v < 1114112 then
      match hexval c with
      | none => (v, c :: r)
      | some d => hexDigits n (16 * v + d) r
    else (v, c :: r)

/-- regcomp.c L417-436: the macros `\w`, `\W`, `\s`, `\S`, `\d`, `\D`: the text of a bracket expression,
    without the opening bracket. -/
def macroBracket (c : Nat) : Option (List Nat) :=
  if c = 119 then some [91, 58, 97, 108, 110, 117, 109, 58, 93, 95, 93]
  else if c = 87 then some [94, 91, 58, 97, 108, 110, 117, 109, 58, 93, 95, 93]
  else if c = 115 then some [91, 58, 115, 112, 97, 99, 101, 58, 93, 93]
  else if c = 83 then some [94, 91, 58, 115, 112, 97, 99, 101, 58, 93, 93]
  else if c = 100 then some [91, 58, 100, 105, 103, 105, 116, 58, 93, 93]
  else if c = 68 then some [94, 91, 58, 100, 105, 103, 105, 116, 58, 93, 93]
  else none

/-- regcomp.c L417-436: the macros that stand for one character: `\t`, `\n`, `\r`, `\f`, `\a`, `\e`. -/
def macroChar (c : Nat) : Option Nat :=
  if c = 116 then some 9 else if c = 110 then some 10 else if c = 114 then some 13
  else if c = 102 then some 12 else if c = 97 then some 7 else if c = 101 then some 27 else none

/-- regcomp.c L793-945 (`parse_atom`, extended, case sensitive): the tree, the next position, the rest of
    the text. -/
def parseAtom (fl : Flags) (s : List Nat) (pos : Nat) : Except Err (Ast × Nat × List Nat) :=
  match s with
  | [] => .ok (.empty, pos, [])                                   -- L915-917
  | c :: r =>
    if c = 91 then                                                -- L800-801
      match bracket fl r with
      | .error e => .error e
      | .ok (ls, rest) => .ok (.leaf pos ls, pos + 1, rest)
    else if c = 92 then                                           -- L802-876
      match r with
      | [] => .error .eescape
      | d :: r' =>
        match macroChar d, macroBracket d with
        | some m, _ => .ok (.leaf pos [{ lo := m, hi := m }], pos + 1, r')
        | none, some t =>
          match bracket fl t with
          | .error e => .error e
          | .ok (ls, _) => .ok (.leaf pos ls, pos + 1, r')
        | none, none =>
          if d = 98 then .ok (.asrt .wb, pos, r')
          else if d = 66 then .ok (.asrt .nwb, pos, r')
          else if d = 60 then .ok (.asrt .bow, pos, r')
          else if d = 62 then .ok (.asrt .eow, pos, r')
          else if d = 120 then
            if r'.headD 0 = 123 then
              let (v, rest) := hexDigits 8 0 r'.tail
              if rest.headD 0 ≠ 125 then .error .ebrace
              else .ok (.leaf pos [{ lo := v, hi := v }], pos + 1, rest.tail)
            else
              let (v, rest) := hexDigits 2 0 r'
              .ok (.leaf pos [{ lo := v, hi := v }], pos + 1, rest)
          else .ok (.leaf pos [{ lo := d, hi := d }], pos + 1, r')
    else if c = 46 then                                           -- L877-890
      if fl.newline then
        .ok (.union (.leaf pos [{ lo := 0, hi := 9 }]) (.leaf (pos + 1) [{ lo := 11, hi := 1114111 }]), pos + 2, r)
      else .ok (.leaf pos [{ lo := 0, hi := 1114111 }], pos + 1, r)
    else if c = 94 then .ok (.asrt .bol, pos, r)                  -- L891-897
    else if c = 36 then .ok (.asrt .eol, pos, r)                  -- L898-904
    else if c = 42 ∨ c = 123 ∨ c = 43 ∨ c = 63 then .error .badrpt  -- L905-911
    else if c = 124 then .ok (.empty, pos, c :: r)                -- L912-917
    else .ok (.leaf pos [{ lo := c, hi := c }], pos + 1, r)       -- L918-937

/-- A node, and whether its `submatch_id` is set (regcomp.c L86-95). -/
abbrev Node := Ast × Bool

/-- regcomp.c L205-221 (`tre_ast_new_catenation`). -/
def newCat : Option Node → Node → Node
  | none, n => n
  | some l, n => (.cat l.1 n.1, false)

/-- regcomp.c L187-203 (`tre_ast_new_union`). -/
def newUnion : Option Node → Node → Node
  | none, n => n
  | some l, n => (.union l.1 n.1, false)

/-- regcomp.c L757-773 (`marksub`). -/
def marksub (n : Node) : Node := if n.2 then (.cat .empty n.1, true) else (n.1, true)

/-- The place in the parser: at the head of the outer loop (regcomp.c L968), or at `parse_iter` (L994) with
    `ctx->n`. -/
inductive Mode
  | top
  | iter (n : Node)
deriving DecidableEq, Repr

/-- The variables of `tre_parse` (regcomp.c L957-965).  `depth` is the length of the stack. -/
structure PSt where
  mode : Mode
  s : List Nat
  nunion : Option Node
  nbranch : Option Node
  stack : List (Option Node × Option Node)
  pos : Nat
deriving DecidableEq, Repr

/-- regcomp.c L968-1081: one passage to the head of the outer loop or to `parse_iter`; the tree and
    `ctx->position` at the end. -/
def pstep (fl : Flags) (st : PSt) : Except Err (PSt ⊕ (Ast × Nat)) :=
  match st.mode with
  | .top =>
    if st.s.headD 0 = 40 then                                     -- L969-981
      .ok (.inl { st with s := st.s.tail, nunion := none, nbranch := none,
                          stack := (st.nunion, st.nbranch) :: st.stack })
    else if st.s.headD 0 = 41 ∧ st.stack ≠ [] then                -- L982-986
      .ok (.inl { st with mode := .iter (.empty, false) })
    else                                                          -- L988-991
      match parseAtom fl st.s st.pos with
      | .error e => .error e
      | .ok (n, pos, rest) => .ok (.inl { st with mode := .iter (n, false), s := rest, pos := pos })
  | .iter n =>
    let c := st.s.headD 0
    if c = 42 ∨ c = 43 ∨ c = 63 ∨ c = 123 then                    -- L998-1038
      match (if c = 123 then parseDup st.s.tail
             else some (if c = 43 then 1 else 0, if c = 63 then some 1 else none, st.s.tail)) with
      | none => .error .badbr
      | some (mn, mx, rest) =>
        .ok (.inl { st with mode := .iter (if mx = some 0 then .empty else .iter n.1 mn mx, false), s := rest })
    else
      let nb := newCat st.nbranch n                               -- L1041
      if c = 124 ∨ (c = 41 ∧ st.stack ≠ []) ∨ st.s = [] then      -- L1042-1047
        let nu := newUnion st.nunion nb                           -- L1051-1052
        if c = 124 then                                           -- L1057-1059
          .ok (.inl { st with mode := .top, s := st.s.tail, nunion := some nu, nbranch := none })
        else
          match st.stack with                                     -- L1060-1078
          | [] => .ok (.inr ((marksub nu).1, st.pos))
          | (u, b) :: stk =>
            if st.s = [] then .error .eparen
            else .ok (.inl { st with mode := .iter (marksub nu), s := st.s.tail, nunion := u, nbranch := b, stack := stk })
      else .ok (.inl { st with mode := .top, nbranch := some nb })

/-- regcomp.c L968-1081: the loop. -/
def ploop (fl : Flags) : Nat → PSt → Except Err (Ast × Nat)
  | 0, _ => .error .fuel
  | fuel + 1, st =>
    match pstep fl st with
    | .error e => .error e
    | .ok (.inl st') => ploop fl fuel st'
    | .ok (.inr r) => .ok r

/-- regcomp.c L957-1082 (`tre_parse`).  Three times as many passages as characters are enough. -/
def parse (fl : Flags) (text : List Nat) : Except Err (Ast × Nat) :=
  ploop fl (3 * text.length + 3) { mode := .top, s := text, nunion := none, nbranch := none, stack := [], pos := 0 }

/-- regcomp.c L2681-2846: `regcomp(&preg, text, REG_EXTENDED | REG_NOSUB)`, possibly with
    `REG_NEWLINE`. -/
def regcompText (fl : Flags) (text : List Nat) : Except Err Tnfa :=
  match parse fl text with
  | .error e => .error e
  | .ok (t, position) => .ok (compile t position)

end Mlibc.Regex
