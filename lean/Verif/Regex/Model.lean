import Verif.Regex.Spec

/-!
# regcomp and regexec

Model of the compiler from syntax trees to automata
(options/posix/musl-generic-regex/regcomp.c L1686-2960) and of the matcher that runs the automaton
(options/posix/musl-generic-regex/regexec.c L142-461), for expressions without back references that
are compiled with `REG_NOSUB`: there are then no tags.
-/
namespace Mlibc.Regex

/-- regcomp.c L63-137: the syntax tree.  `LITERAL` nodes are `leaf` (one character), `empty` and `asrt`.
    Simplification: the union of `LITERAL` nodes that a bracket expression (L676-701), or a letter
    under `REG_ICASE` (L923-931), gives, all with the same position, is one `leaf` with a list of
    items.  Allocation always succeeds. -/
inductive Ast
  | leaf (p : Nat) (ls : List Lit)
  | empty
  | asrt (a : Asrt)
  | cat (l r : Ast)
  | union (l r : Ast)
  | iter (a : Ast) (mn : Nat) (mx : Option Nat)
deriving DecidableEq, Repr

/-- regcomp.c L957-1082 with L793-945: the tree that the parser builds for an expression, when the next
    free position is `n`: positions are handed out from left to right (`ctx->position++`, L705, L880,
    L887, L935), and a repetition `{0}` is replaced by an empty literal (L1033-1034), while the
    positions in it stay used.  Simplification: the text is not parsed here. -/
def number : Re → Nat → Ast × Nat
  | .chr ls, n => (.leaf n ls, n + 1)
  | .eps, n => (.empty, n)
  | .asrt a, n => (.asrt a, n)
  | .cat l r, n => (.cat (number l n).1 (number r (number l n).2).1, (number r (number l n).2).2)
  | .alt l r, n => (.union (number l n).1 (number r (number l n).2).1, (number r (number l n).2).2)
  | .rep r mn mx, n =>
    if mx = some 0 then (.empty, (number r n).2) else (.iter (number r n).1 mn mx, (number r n).2)

/-! ## Expansion of repetitions -/

/-- regcomp.c L1686-1813 (`tre_copy_ast`): the copy of a tree with `add` added to every position. -/
def shift (add : Nat) : Ast → Ast
  | .leaf p ls => .leaf (p + add) ls
  | .empty => .empty
  | .asrt a => .asrt a
  | .cat l r => .cat (shift add l) (shift add r)
  | .union l r => .union (shift add l) (shift add r)
  | .iter a mn mx => .iter (shift add a) mn mx

/-- regcomp.c L1686-1813: `num_copied`, by which `tre_copy_ast` advances `*pos_add` (L1732, L1811): the
    number of literals that have a position. -/
def lits : Ast → Nat
  | .leaf _ ls => ls.length
  | .empty => 0
  | .asrt _ => 0
  | .cat l r => lits l + lits r
  | .union l r => lits l + lits r
  | .iter a _ _ => lits a

/-- regcomp.c L1717-1757: the largest position that the copy has, or `m` if that is larger. -/
def maxPos (m : Nat) : Ast → Nat
  | .leaf p ls => if ls.isEmpty then m else max m p
  | .empty => m
  | .asrt _ => m
  | .cat l r => maxPos (maxPos m l) r
  | .union l r => maxPos (maxPos m l) r
  | .iter a _ _ => maxPos m a

/-- regcomp.c L1906, L1925: is the iteration expanded? (`max` is -1 for "no limit".) -/
def expands (mn : Nat) (mx : Option Nat) : Bool :=
  decide (mn > 1) || (match mx with | none => false | some m => decide (m > 1))

/-- regcomp.c L1932-1953: `n` copies of the argument, catenated from the left to `seq1`; copy after copy
    the positions are advanced by the number of literals.  Gives the sequence and `pos_add`. -/
def copies (a : Ast) : Nat → Ast → Nat → Ast × Nat
  | 0, seq, add => (seq, add)
  | n + 1, seq, add => copies a n (.cat seq (shift add a)) (add + lits a)

/-- regcomp.c L1969-1990: `n` optional copies, each new one put in front of the sequence. -/
def optCopies (a : Ast) : Nat → Ast → Nat → Ast × Nat
  | 0, seq, add => (seq, add)
  | n + 1, seq, add => optCopies a n (.union .empty (.cat (shift add a) seq)) (add + lits a)

/-- regcomp.c L1927-2004: the sequence that replaces an iteration that is expanded, when `pos_add` is
    `add`; and `pos_add` after the last copy. -/
def expandIter (a : Ast) (mn : Nat) (mx : Option Nat) (add : Nat) : Ast × Nat :=
  match mx with
  | none =>
    -- min > 1
    let s1 := copies a (mn - 1) (shift add a) (add + lits a)
    (.cat s1.1 (.iter (shift s1.2 a) 0 none), s1.2 + lits a)
  | some m =>
    if mn = 0 then
      optCopies a (m - 1) (.union .empty (shift add a)) (add + lits a)
    else
      let s1 := copies a (mn - 1) (shift add a) (add + lits a)
      if mn < m then
        let s2 := optCopies a (m - mn - 1) (.union .empty (shift s1.2 a)) (s1.2 + lits a)
        (.cat s1.1 s2.1, s2.2)
      else s1

/-- The variables of `tre_expand_ast` (regcomp.c L1829-1832): `pos_add`, `pos_add_total`, `max_pos`. -/
structure ExpSt where
  add : Nat
  total : Nat
  maxp : Nat
deriving DecidableEq, Repr

/-- regcomp.c L1822-2017 (`tre_expand_ast`), by recursion instead of an explicit stack; `d` is
    `iter_depth`.  `pos_add_save`, the value before the last copy, is the value after it less the
    number of literals of the argument. -/
def expand : Ast → Nat → ExpSt → Ast × ExpSt
  | .leaf p ls, _, s =>
    -- L1852-1862
    (.leaf (p + s.add) ls, { s with maxp := if ls.isEmpty then s.maxp else max s.maxp (p + s.add) })
  | .empty, _, s => (.empty, s)
  | .asrt a, _, s => (.asrt a, s)
  | .union l r, d, s =>
    -- L1863-1871
    let (l', s1) := expand l d s
    let (r', s2) := expand r d s1
    (.union l' r', s2)
  | .cat l r, d, s =>
    -- L1872-1880
    let (l', s1) := expand l d s
    let (r', s2) := expand r d s1
    (.cat l' r', s2)
  | .iter a mn mx, d, s =>
    -- L1881-1897
    let (a', s1) := expand a (d + 1) { s with add := if expands mn mx then 0 else s.add }
    -- L1904-2009
    if expands mn mx then
      let (t, add') := expandIter a' mn mx s.add
      let save := add' - lits a'
      let total := s1.total + (save - s.add)
      (t, { add := if d = 0 then total else save, total := total, maxp := maxPos s1.maxp t })
    else
      (.iter a' mn mx, { s1 with add := if d = 0 then s1.total else s.add })

/-! ## From the tree to the automaton -/

/-- regcomp.c L2246-2341 (`tre_compute_nfl`): `nullable`. -/
def nullable : Ast → Bool
  | .leaf _ _ => false
  | .empty => true
  | .asrt _ => true
  | .cat l r => nullable l && nullable r
  | .union l r => nullable l || nullable r
  | .iter a mn _ => mn == 0 || nullable a

/-- regcomp.c L2134-2233 (`tre_match_empty`): the assertions on the empty path through a nullable node;
    of a union, only the left branch is taken if that is nullable.  The bit mask is a list. -/
def emp : Ast → List Asrt
  | .leaf _ _ => []
  | .empty => []
  | .asrt a => [a]
  | .cat l r => emp r ++ emp l
  | .union l r => if nullable l then emp l else emp r
  | .iter a _ _ => if nullable a then emp a else []

/-- An element of `firstpos` (regcomp.c L2035-2058): a position, and assertions.  (The character range is
    not used.) -/
abbrev First := Nat × List Asrt

/-- regcomp.c L2246-2424: `firstpos`. -/
def firstpos : Ast → List First
  | .leaf p ls => ls.map fun _ => (p, [])
  | .empty => []
  | .asrt _ => []
  | .cat l r =>
    if nullable l then (firstpos r).map (fun f => (f.1, f.2 ++ emp l)) ++ firstpos l
    else firstpos l
  | .union l r => firstpos l ++ firstpos r
  | .iter a _ _ => firstpos a

/-- An element of `lastpos` (regcomp.c L2035-2058): a position, the item read there, and assertions. -/
abbrev Last := Nat × Lit × List Asrt

/-- regcomp.c L2246-2465: `lastpos`. -/
def lastpos : Ast → List Last
  | .leaf p ls => ls.map fun l => (p, l, [])
  | .empty => []
  | .asrt _ => []
  | .cat l r =>
    if nullable r then (lastpos l).map (fun f => (f.1, f.2.1, f.2.2 ++ emp r)) ++ lastpos r
    else lastpos r
  | .union l r => lastpos l ++ lastpos r
  | .iter a _ _ => lastpos a

/-- A transition (tre.h L136-160): the item to be read, the state it leads to, the assertions to be
    checked after reading. -/
structure Trans where
  lit : Lit
  tgt : Nat
  as : List Asrt
deriving DecidableEq, Repr

/-- regcomp.c L2491-2500: neighbours in `p2` with the same position are taken once. -/
def skipSame : Option Nat → List First → List First
  | _, [] => []
  | prev, f :: r => if prev = some f.1 then skipSame prev r else f :: skipSame (some f.1) r

/-- regcomp.c L2474-2609 (`tre_make_trans`): transitions from each position of `p1` to each position of
    `p2`.  The table is the list of (from, transition); the array of the code has room for each
    (L2596-2607, L2766-2779). -/
def makeTrans (p1 : List Last) (p2 : List First) : List (Nat × Trans) :=
  p1.flatMap fun q => (skipSame none p2).map fun f => (q.1, { lit := q.2.1, tgt := f.1, as := q.2.2 ++ f.2 })

/-- regcomp.c L2615-2669 (`tre_ast_to_tnfa`). -/
def toTnfa : Ast → List (Nat × Trans)
  | .leaf _ _ => []
  | .empty => []
  | .asrt _ => []
  | .union l r => toTnfa l ++ toTnfa r
  | .cat l r => makeTrans (lastpos l) (firstpos r) ++ toTnfa l ++ toTnfa r
  | .iter a _ mx => (if mx = none then makeTrans (lastpos a) (firstpos a) else []) ++ toTnfa a

/-- The automaton (tre.h `tre_tnfa`). -/
structure Tnfa where
  trans : List (Nat × Trans)
  initial : List First
  final : Nat
deriving DecidableEq, Repr

/-- regcomp.c L2845: the position of `tree->lastpos[0]`. -/
def firstOf : List Last → Nat
  | q :: _ => q.1
  | [] => 0

/-- regcomp.c L2745-2846: from the tree and `position`: expansion, the dummy node for the final state,
    and the automaton. -/
def compile (t : Ast) (position : Nat) : Tnfa :=
  let (t', s) := expand t 0 { add := 0, total := 0, maxp := 0 }
  let pos := position + s.total
  let pos := if s.maxp > pos then s.maxp else pos
  let tree := Ast.cat t' (.leaf pos [{ lo := 0, hi := 0 }])
  { trans := toTnfa tree
    initial := firstpos tree
    final := firstOf (lastpos tree) }

/-- regcomp.c L2681-2846 (`regcomp` with `REG_NOSUB`), from the parsed expression. -/
def regcomp (r : Re) : Tnfa := compile (number r 0).1 (number r 0).2

/-! ## The matcher -/

/-- regexec.c L62 (`IS_WORD_CHAR`). -/
def isWord (x : Ctx) (c : Nat) : Bool := c == 95 || x.alnum c

/-- regexec.c L64-80 (`CHECK_ASSERTIONS`, for one bit of the mask): is the assertion violated? -/
def violated (x : Ctx) (pos prev next : Nat) : Asrt → Bool
  | .bol => (decide (pos > 0) || x.notbol) && (prev != 10 || !x.newline)
  | .eol => (next != 0 || x.noteol) && (next != 10 || !x.newline)
  | .bow => isWord x prev || !isWord x next
  | .eow => !isWord x prev || isWord x next
  | .wb => pos != 0 && next != 0 && isWord x prev == isWord x next
  | .nwb => pos == 0 || next == 0 || isWord x prev != isWord x next

/-- regexec.c L123-134 (`tre_neg_char_classes_match`). -/
def negClassesMatch (x : Ctx) (c : Nat) : List Nat → Bool
  | [] => false
  | k :: r =>
    if (!x.icase && x.isctype c k)
        || (x.icase && (x.isctype (x.upper c) k || x.isctype (x.lower c) k)) then true
    else negClassesMatch x c r

/-- regexec.c L82-92 (`CHECK_CHAR_CLASSES`). -/
def classesViolated (x : Ctx) (c : Nat) (l : Lit) : Bool :=
  (l.cls != 0 && !x.icase && !x.isctype c l.cls)
  || (l.cls != 0 && x.icase && !x.isctype (x.lower c) l.cls && !x.isctype (x.upper c) l.cls)
  || (!l.neg.isEmpty && negClassesMatch x c l.neg)

/-- regexec.c L255-293: the initial states are added to `reach_next`.  The state is the list of states
    reached at this position, and whether a match was found; `reach_pos[id].pos < pos` holds iff `id`
    is not in the list. -/
def addInitial (x : Ctx) (pos prev next final : Nat) : List First → List Nat × Bool → List Nat × Bool
  | [], s => s
  | f :: r, s =>
    if f.1 ∈ s.1 then addInitial x pos prev next final r s
    else if f.2.any (violated x pos prev next) then addInitial x pos prev next final r s
    else addInitial x pos prev next final r (s.1 ++ [f.1], s.2 || f.1 == final)

/-- regexec.c L366-451: the transitions (of one state) on the character just read, `prev`. -/
def addTrans (x : Ctx) (pos prev next final : Nat) : List Trans → List Nat × Bool → List Nat × Bool
  | [], s => s
  | t :: r, s =>
    if t.lit.lo ≤ prev ∧ t.lit.hi ≥ prev then
      if t.as.any (violated x pos prev next) || classesViolated x prev t.lit then
        addTrans x pos prev next final r s
      else if t.tgt ∈ s.1 then addTrans x pos prev next final r s
      else addTrans x pos prev next final r (s.1 ++ [t.tgt], s.2 || t.tgt == final)
    else addTrans x pos prev next final r s

/-- regexec.c L366: the transitions that leave a state. -/
def leaving (T : Tnfa) (q : Nat) : List Trans := (T.trans.filter (fun e => e.1 == q)).map (·.2)

/-- regexec.c L360-452: the states reached with the character just read. -/
def stepAll (x : Ctx) (T : Tnfa) (pos prev next : Nat) : List Nat → List Nat × Bool → List Nat × Bool
  | [], s => s
  | q :: r, s => stepAll x T pos prev next r (addTrans x pos prev next T.final (leaving T q) s)

/-- regexec.c L247-454 (`tre_tnfa_run_parallel`, the loop; `num_tags` is 0): `rest` are the characters
    not yet read, the first of which is `next_c`; `prev` is the last one read.  Every character of
    the string is valid, so `GET_NEXT_WCHAR` does not fail. -/
def run (x : Ctx) (T : Tnfa) : List Nat → Nat → Nat → List Nat × Bool → Bool
  | [], pos, prev, s =>
    if s.2 then true
    else (addInitial x pos prev 0 T.final T.initial s).2
  | c :: rest, pos, prev, s =>
    if s.2 then true
    else
      let s1 := addInitial x pos prev c T.final T.initial s
      run x T rest (pos + 1) c (stepAll x T (pos + 1) c (rest.headD 0) s1.1 ([], s1.2))

/-- regexec.c L996-1046 with L142-461: does `regexec` report a match (0), rather than `REG_NOMATCH`?
    No back references, so the parallel matcher is used. -/
def regexec (x : Ctx) (T : Tnfa) : Bool := run x T x.str 0 0 ([], false)

end Mlibc.Regex
