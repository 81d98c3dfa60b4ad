import Verif.Base

/-
C99: fnmatch.

Code: options/posix/musl-generic-regex/fnmatch.c, all of it. Lines without a file name are lines of fnmatch.c. Strings are lists of bytes without NUL; a
pointer is what is left of the string, and a pointer with a length is that part of it. (The code looks at what is behind the length in two places: a backslash
followed by the end, and `*str`, `*pat` for FNM_PERIOD. The lengths it is called with end before a slash of the string, and before a slash or an escaped slash of
the pattern, so that makes no difference.) mbtowc, iswctype and casefold are parameters. What the code returns with FNM_NOMATCH is `false`.
-/
namespace Mlibc.Fnmatch

/-- mbtowc for bytes from 128 on (code and length, `none`: negative), iswctype(_, wctype(name)), and casefold. L105-109 -/
structure Env where
  mb : List Nat → Option (Nat × Nat)
  cls : List Nat → Int → Bool
  fold : Int → Int

/-- FNM_PATHNAME, FNM_NOESCAPE, FNM_PERIOD, FNM_LEADING_DIR, FNM_CASEFOLD. fnmatch.h L12-23 -/
structure Flags where
  pathname : Bool := false
  noescape : Bool := false
  period : Bool := false
  leadingDir : Bool := false
  casefold : Bool := false

/-- mbtowc; a byte below 128 is a character. L41, L94, L131, L158 -/
def mbtowc (env : Env) : List Nat → Option (Nat × Nat)
  | [] => none
  | c :: s => if c < 128 then some (c, 1) else env.mb (c :: s)

/-- str_next: the character, 0 at the end, -1 for an invalid one; and the step. L33-51 -/
def strNext (env : Env) : List Nat → Int × Nat
  | [] => (0, 0)
  | c :: s => if c ≥ 128 then (match env.mb (c :: s) with | none => (-1, 1) | some (w, k) => (w, k)) else (c, 1)

/-- END, UNMATCHABLE, BRACKET, QUESTION, STAR, or a character. L27-31 -/
inductive Tok where
  | fin | unmatchable | bracket | question | star
  | chr (c : Nat)
  deriving DecidableEq, Repr

/-- ':', '.', '='. L72, L140 -/
def isZ (z : Nat) : Bool := z == 58 || z == 46 || z == 61

/-- `while (pat[k-1]!=z || pat[k]!=']') k++`: what is behind the ']', and its index. L76, L144 -/
def skipTo (z : Nat) : Nat → List Nat → Nat → Option (List Nat × Nat)
  | _, [], _ => none
  | prev, c :: r, k => if prev = z ∧ c = 93 then some (r, k + 1) else skipTo z c r (k + 1)

/-- The loop that looks for the end of a bracket expression: the index behind it. L71-84 -/
def bracketScan : Nat → List Nat → Nat → Option Nat
  | 0, _, _ => none
  | fuel + 1, q, k =>
    match q with
    | [] => none
    | c :: r =>
      if c = 93 then some (k + 1)
      else if c = 91 ∧ isZ (r.headD 0) then
        match r with
        | z :: x :: r' => (match skipTo z x r' (k + 3) with | some (r'', k') => bracketScan fuel r'' k' | none => none)
        | _ => none
      else bracketScan fuel r (k + 1)

/-- The bracket expression that begins with '[': its length. L68-85 -/
def bracketEnd (p : List Nat) : Option Nat :=
  let (p, k) := if p.headD 0 = 94 ∨ p.headD 0 = 33 then (p.tail, 2) else (p, 1)
  let (p, k) := if p.headD 0 = 93 then (p.tail, k + 1) else (p, k)
  bracketScan (p.length + 1) p k

/-- pat_next: the token, and the step. L53-103 -/
def patNext (env : Env) (noescape : Bool) : List Nat → Tok × Nat
  | [] => (.fin, 0)
  | c :: p =>
    if c = 92 ∧ p ≠ [] ∧ !noescape then
      if p.headD 0 ≥ 128 then (match env.mb p with | none => (.unmatchable, 0) | some (w, k) => (.chr w, k + 1)) else (.chr (p.headD 0), 2)
    else if c = 91 then (match bracketEnd p with | none => (.chr 91, 1) | some k => (.bracket, k))
    else if c = 42 then (.star, 1)
    else if c = 63 then (.question, 1)
    else if c ≥ 128 then (match env.mb (c :: p) with | none => (.unmatchable, 0) | some (w, k) => (.chr w, k))
    else (.chr c, 1)

/-- `(unsigned)k-wc <= wc2-wc`. L134-135 -/
def within (k : Int) (wc wc2 : Nat) : Bool := decide ((k - wc) % 2 ^ 32 ≤ ((wc2 : Int) - wc) % 2 ^ 32)

/-- The loop of match_bracket; the end of the list is not reached. L128-164 -/
def matchLoop (env : Env) (inv : Bool) (k kfold : Int) : Nat → Nat → List Nat → Bool
  | 0, _, _ => false
  | fuel + 1, wc, p =>
    match p with
    | [] => false
    | c :: r =>
      if c = 93 then inv
      else if c = 45 ∧ r.headD 0 ≠ 93 then
        match mbtowc env r with
        | none => false
        | some (wc2, l) =>
          if wc ≤ wc2 ∧ (within k wc wc2 || within kfold wc wc2) then !inv
          else matchLoop env inv k kfold fuel wc (p.drop l)
      else if c = 91 ∧ isZ (r.headD 0) then
        match r with
        | z :: x :: r' =>
          match skipTo z x r' 0 with
          | none => false
          | some (r'', n) =>
            if z = 58 ∧ n < 17 ∧ (env.cls ((x :: r').take (n - 1)) k || env.cls ((x :: r').take (n - 1)) kfold) then !inv
            else matchLoop env inv k kfold fuel wc r''
        | _ => false
      else
        match mbtowc env (c :: r) with
        | none => false
        | some (w, l) => if (w : Int) = k ∨ (w : Int) = kfold then !inv else matchLoop env inv k kfold fuel w (p.drop l)

/-- match_bracket; `p` is behind the '['. L111-165 -/
def matchBracket (env : Env) (p : List Nat) (k kfold : Int) : Bool :=
  let inv : Bool := decide (p.headD 0 = 94 ∨ p.headD 0 = 33)
  let p := if p.headD 0 = 94 ∨ p.headD 0 = 33 then p.tail else p
  if p.headD 0 = 93 ∨ p.headD 0 = 45 then
    if k = p.headD 0 then !inv else matchLoop env inv k kfold (p.length + 1) (p.headD 0) p.tail
  else matchLoop env inv k kfold (p.length + 1) 91 p

/-- The comparison of a token with a character. `pat`: where the token begins. L192-198, L253-259, L282-288 -/
def fits (env : Env) (fl : Flags) (t : Tok) (pat : List Nat) (k : Int) : Bool :=
  let kfold := if fl.casefold then env.fold k else k
  match t with
  | .bracket => matchBracket env pat.tail k kfold
  | .question => true
  | .chr c => decide (k = c ∨ kfold = c)
  | _ => false

/-- How the first loop ends. -/
inductive Head where
  | result (b : Bool)
  | star (pat str : List Nat)
  | stuck

/-- The first loop. L178-204 -/
def headLoop (env : Env) (fl : Flags) : Nat → List Nat → List Nat → Head
  | 0, _, _ => .stuck
  | fuel + 1, pat, str =>
    match patNext env fl.noescape pat with
    | (.unmatchable, _) => .result false
    | (.star, _) => .star pat.tail str
    | (t, pinc) =>
      let k := strNext env str
      if k.1 ≤ 0 then .result (t = .fin)
      else if fits env fl t pat k.1 then headLoop env fl fuel (pat.drop pinc) (str.drop k.2)
      else .result false

/-- The loop that looks for the last star: what is behind it, and the number of tokens there. `some none`: unmatchable. L211-223 -/
def tailScan (env : Env) (fl : Flags) : Nat → List Nat → List Nat → Nat → Option (Option (List Nat × Nat))
  | 0, _, _, _ => none
  | fuel + 1, p, ptail, cnt =>
    if p = [] then some (some (ptail, cnt))
    else
      match patNext env fl.noescape p with
      | (.unmatchable, _) => some none
      | (.star, _) => tailScan env fl fuel p.tail p.tail 0
      | (_, pinc) => tailScan env fl fuel (p.drop pinc) ptail (cnt + 1)

/-- `while ((unsigned char)*--s-0x80U<0x40 && s>str)`, on the reversed string in front of `s`. L238 -/
def backChar : List Nat → List Nat
  | [] => []
  | c :: r => if 128 ≤ c ∧ c < 192 ∧ r ≠ [] then backChar r else r

/-- The last `cnt` characters are skipped: the reversed string in front of them, and what is left of `cnt`. L236-239 -/
def back : Nat → List Nat → List Nat × Nat
  | 0, r => (r, 0)
  | n + 1, [] => ([], n + 1)
  | n + 1, c :: r => if c < 128 then back n r else back n (backChar (c :: r))

/-- The comparison of the tails. L244-260 -/
def tailLoop (env : Env) (fl : Flags) : Nat → List Nat → List Nat → Option Bool
  | 0, _, _ => none
  | fuel + 1, p, s =>
    let t := patNext env fl.noescape p
    let k := strNext env s
    if k.1 ≤ 0 then some (t.1 = .fin)
    else if fits env fl t.1 p k.1 then tailLoop env fl fuel (p.drop t.2) (s.drop k.2)
    else some false

/-- How the comparison of a component ends: at its star, in front of the end of the string, or elsewhere. -/
inductive Comp where
  | star (pat str : List Nat)
  | short
  | differs
  | stuck

/-- The comparison of a component at a place of the string. L270-290 -/
def compLoop (env : Env) (fl : Flags) : Nat → List Nat → List Nat → Comp
  | 0, _, _ => .stuck
  | fuel + 1, p, s =>
    match patNext env fl.noescape p with
    | (.star, pinc) => .star (p.drop pinc) s
    | (t, pinc) =>
      let k := strNext env s
      if k.1 = 0 then .short
      else if fits env fl t p k.1 then compLoop env fl fuel (p.drop pinc) (s.drop k.2)
      else .differs

/-- `for (str++; str_next(str, endstr-str, &sinc)<0; str++)`. L296 -/
def skipInvalid (env : Env) : List Nat → List Nat
  | [] => []
  | c :: s => if (strNext env (c :: s)).1 < 0 then skipInvalid env s else c :: s

/-- The next place in the string. L294-296 -/
def advance (env : Env) (str : List Nat) : List Nat :=
  let k := strNext env str
  if k.1 > 0 then str.drop k.2 else skipInvalid env str.tail

/-- The loop over the components. L267-299 -/
def sea (env : Env) (fl : Flags) : Nat → List Nat → List Nat → Option Bool
  | 0, _, _ => none
  | fuel + 1, pat, str =>
    if pat = [] then some true
    else
      match compLoop env fl (pat.length + 1) pat str with
      | .star pat str => sea env fl fuel pat str
      | .short => some false
      | .differs => sea env fl fuel pat (advance env str)
      | .stuck => none

/-- fnmatch_internal; `none`: out of fuel. L167-300 -/
def internal (env : Env) (fl : Flags) (pat str : List Nat) : Option Bool :=
  if fl.period ∧ str.head? = some 46 ∧ pat.head? ≠ some 46 then some false
  else
    match headLoop env fl (pat.length + 1) pat str with
    | .stuck => none
    | .result b => some b
    | .star pat str =>
      match tailScan env fl (pat.length + 1) pat pat 0 with
      | none => none
      | some none => some false
      | some (some (ptail, cnt)) =>
        if str.length < cnt then some false
        else
          let b := back cnt str.reverse
          if b.2 ≠ 0 then some false
          else
            match tailLoop env fl (pat.length + 1) ptail (str.drop b.1.length) with
            | none => none
            | some false => some false
            | some true => sea env fl (pat.length + str.length + 1) (pat.take (pat.length - ptail.length)) b.1.reverse

/-- The end of the first component of the pattern: its length, and the token there. L309 -/
def patSlash (env : Env) (fl : Flags) : Nat → List Nat → Nat → Option (Nat × Tok × Nat)
  | 0, _, _ => none
  | fuel + 1, p, n =>
    let t := patNext env fl.noescape p
    if t.1 = .fin ∨ t.1 = .chr 47 then some (n, t.1, t.2) else patSlash env fl fuel (p.drop t.2) (n + t.2)

/-- The loop for FNM_PATHNAME. L307-316 -/
def pathLoop (env : Env) (fl : Flags) : Nat → List Nat → List Nat → Option Bool
  | 0, _, _ => none
  | fuel + 1, pat, str =>
    let n := (str.takeWhile (· ≠ 47)).length
    match patSlash env fl (pat.length + 1) pat 0 with
    | none => none
    | some (i, c, inc) =>
      let ended := decide (str.length = n)
      if decide (c = .fin) ≠ ended ∧ (ended || !fl.leadingDir) then some false
      else
        match internal env fl (pat.take i) (str.take n) with
        | none => none
        | some false => some false
        | some true => if c = .fin then some true else pathLoop env fl fuel (pat.drop (i + inc)) (str.drop (n + 1))

/-- The loop for FNM_LEADING_DIR: is there a slash up to which the string matches? L317-323 -/
def dirLoop (env : Env) (fl : Flags) (pat : List Nat) : List Nat → List Nat → Option Bool
  | _, [] => some false
  | pre, c :: s =>
    if c ≠ 47 then dirLoop env fl pat (pre ++ [c]) s
    else
      match internal env fl pat pre with
      | none => none
      | some true => some true
      | some false => dirLoop env fl pat (pre ++ [c]) s

/-- fnmatch. L302-325 -/
def fnmatch (env : Env) (fl : Flags) (pat str : List Nat) : Option Bool :=
  if fl.pathname then pathLoop env fl (str.length + 2) pat str
  else if fl.leadingDir then
    match dirLoop env fl pat [] str with
    | none => none
    | some true => some true
    | some false => internal env fl pat str
  else internal env fl pat str

/-! ## Specification: patterns, how they are written, and what they match -/

/-- What stands in a bracket expression: a character, a range, a class `[:name:]`. -/
inductive Elem where
  | chr (c : Nat)
  | range (a b : Nat)
  | cls (name : List Nat)

def Elem.text : Elem → List Nat
  | .chr c => [c]
  | .range a b => [a, 45, b]
  | .cls n => 91 :: 58 :: (n ++ [58, 93])

def texts (es : List Elem) : List Nat := es.flatMap Elem.text

/-- The characters an element stands for. -/
def Elem.has (cls : List Nat → Int → Bool) : Elem → Int → Bool
  | .chr c, k => decide (k = c)
  | .range a b, k => decide ((a : Int) ≤ k ∧ k ≤ b)
  | .cls n, k => cls n k

/-- A character of the portable character set. -/
def Ascii (c : Nat) : Prop := 0 < c ∧ c < 128

/-- What follows does not make a '[' the begin of "[:", "[." or "[=". -/
def Plain (es : List Elem) : Prop := (texts es).head? ≠ some 58 ∧ (texts es).head? ≠ some 46 ∧ (texts es).head? ≠ some 61

/-- The elements behind the first one: a '-' only at the end, no ']', the end points of a range in order. -/
def Inside : List Elem → Prop
  | [] => True
  | .chr c :: es => Ascii c ∧ c ≠ 93 ∧ (c = 45 → es = []) ∧ (c = 91 → Plain es) ∧ Inside es
  | .range a b :: es => Ascii a ∧ Ascii b ∧ a ≤ b ∧ a ≠ 93 ∧ a ≠ 45 ∧ b ≠ 93 ∧ (b = 45 → es = []) ∧ (b = 91 → Plain es) ∧ Inside es
  | .cls n :: es => n ≠ [] ∧ n.length < 16 ∧ (∀ c ∈ n, 97 ≤ c ∧ c ≤ 122) ∧ Inside es

/-- All elements: the first one may also begin with '-' or ']'. -/
def Elems : List Elem → Prop
  | [] => False
  | .chr c :: es => Ascii c ∧ (c = 91 → Plain es) ∧ Inside es
  | .range a b :: es => Ascii a ∧ Ascii b ∧ a ≤ b ∧ b ≠ 93 ∧ (b = 45 → es = []) ∧ (b = 91 → Plain es) ∧ Inside es
  | .cls n :: es => n ≠ [] ∧ n.length < 16 ∧ (∀ c ∈ n, 97 ≤ c ∧ c ≤ 122) ∧ Inside es

/-- A character (perhaps behind a backslash), '?', '*', a bracket expression (not negated, with '!', with '^'). -/
inductive Item where
  | lit (esc : Bool) (c : Nat)
  | any
  | star
  | set (neg : Option Bool) (es : List Elem)

def Item.text : Item → List Nat
  | .lit true c => [92, c]
  | .lit false c => [c]
  | .any => [63]
  | .star => [42]
  | .set none es => 91 :: (texts es ++ [93])
  | .set (some false) es => 91 :: 33 :: (texts es ++ [93])
  | .set (some true) es => 91 :: 94 :: (texts es ++ [93])

def textOf (is : List Item) : List Nat := is.flatMap Item.text

/-- The items are what their text says: a character that is written without a backslash is not special. A '[' that is not closed and a backslash at the end
(or with FNM_NOESCAPE) are characters. -/
def Items (noescape : Bool) : List Item → Prop
  | [] => True
  | .lit true c :: is => noescape = false ∧ Ascii c ∧ Items noescape is
  | .lit false c :: is => Ascii c ∧ c ≠ 42 ∧ c ≠ 63 ∧ (c = 92 → noescape = true ∨ is = []) ∧ (c = 91 → 93 ∉ textOf is) ∧ Items noescape is
  | .any :: is => Items noescape is
  | .star :: is => Items noescape is
  | .set neg es :: is => Elems es ∧ (neg = none → (texts es).head? ≠ some 33 ∧ (texts es).head? ≠ some 94) ∧ Items noescape is

/-- The characters an item stands for. With FNM_CASEFOLD also those of the other case. -/
def Item.one (env : Env) (fl : Flags) : Item → Int → Bool
  | .lit _ c, k => decide (k = c) || (fl.casefold && decide (env.fold k = c))
  | .any, _ => true
  | .star, _ => false
  | .set neg es, k => neg.isSome != es.any (fun e => e.has env.cls k || (fl.casefold && e.has env.cls (env.fold k)))

/-- The other case of a character: that of '-', ']' and '/' is itself. -/
def FoldOk (env : Env) : Prop := ∀ k : Int, 0 < k → k < 128 → 0 ≤ env.fold k ∧ env.fold k < 2 ^ 31 ∧
  (env.fold k = 45 → k = 45) ∧ (env.fold k = 93 → k = 93) ∧ (env.fold k = 47 → k = 47)

/-- What a pattern matches. With FNM_PATHNAME a slash is matched by a slash only. With FNM_PERIOD a period at the begin (`lead`; with FNM_PATHNAME also
behind a slash) is matched only by a period at the same place of the pattern. -/
inductive Matches (env : Env) (fl : Flags) : Bool → List Item → List Nat → Prop
  | nil (lead : Bool) : Matches env fl lead [] []
  | one {lead : Bool} {i : Item} {c : Nat} {is : List Item} {s : List Nat} : i.one env fl c = true →
      (fl.pathname = true → c = 47 → ∃ e, i = .lit e 47) → (lead = true → fl.period = true → c = 46 → ∃ e, i = .lit e 46) →
      Matches env fl (fl.pathname && c == 47) is s → Matches env fl lead (i :: is) (c :: s)
  | star {lead : Bool} {pre : List Nat} {is : List Item} {s : List Nat} : (fl.pathname = true → 47 ∉ pre) →
      (lead = true → fl.period = true → (pre ++ s).head? ≠ some 46) → Matches env fl false is s → Matches env fl lead (.star :: is) (pre ++ s)

/-- With FNM_LEADING_DIR it is enough that the string matches up to a slash. -/
def Accepts (env : Env) (fl : Flags) (is : List Item) (s : List Nat) : Prop :=
  Matches env fl true is s ∨ (fl.leadingDir = true ∧ ∃ pre post, s = pre ++ 47 :: post ∧ Matches env fl true is pre)

/-! ## Brackets -/

theorem within_iff {k : Int} {a b : Nat} (h0 : 0 ≤ k) (h1 : k < 2 ^ 31) (ha : a < 128) (hb : b < 128) (hab : a ≤ b) :
    within k a b = decide ((a : Int) ≤ k ∧ k ≤ b) := by
  unfold within
  apply decide_eq_decide.2
  omega

theorem skipTo_name (n : List Nat) (hn : ∀ c ∈ n, 97 ≤ c ∧ c ≤ 122) (prev : Nat) (hp : 97 ≤ prev) (rest : List Nat) (k : Nat) :
    skipTo 58 prev (n ++ 58 :: 93 :: rest) k = some (rest, k + n.length + 2) := by
  induction n generalizing prev k with
  | nil =>
    simp [skipTo]
  | cons c n ih =>
    have hc := hn c (by simp)
    simp only [List.cons_append, skipTo]
    rw [if_neg (by omega), ih (fun x hx => hn x (by simp [hx])) c (by omega)]
    simp only [List.length_cons]
    congr 2
    omega

theorem plain_head {es : List Elem} (h : Plain es) (rest : List Nat) : isZ ((texts es ++ 93 :: rest).headD 0) = false := by
  unfold Plain at h
  cases ht : texts es with
  | nil => rfl
  | cons c t =>
    rw [ht] at h
    simp only [List.head?_cons, ne_eq, Option.some.injEq] at h
    simp only [List.cons_append, List.headD_cons, isZ, Bool.or_eq_false_iff, beq_eq_false_iff_ne]
    exact ⟨⟨h.1, h.2.1⟩, h.2.2⟩

/-- The head behind a character that is not a '-' at the end. -/
theorem follow_head {es : List Elem} {c : Nat} (h : c = 45 → es = []) (rest : List Nat) : ¬ (c = 45 ∧ (texts es ++ 93 :: rest).headD 0 ≠ 93) := by
  rintro ⟨h1, h2⟩
  rw [h h1] at h2
  exact h2 rfl

theorem loop_cons (env : Env) (inv : Bool) (k kf : Int) (fuel wc c : Nat) (r : List Nat) : matchLoop env inv k kf (fuel + 1) wc (c :: r) =
    if c = 93 then inv
    else if c = 45 ∧ r.headD 0 ≠ 93 then
      match mbtowc env r with
      | none => false
      | some (wc2, l) =>
        if wc ≤ wc2 ∧ (within k wc wc2 || within kf wc wc2) then !inv
        else matchLoop env inv k kf fuel wc ((c :: r).drop l)
    else if c = 91 ∧ isZ (r.headD 0) then
      match r with
      | z :: x :: r' =>
        match skipTo z x r' 0 with
        | none => false
        | some (r'', n) =>
          if z = 58 ∧ n < 17 ∧ (env.cls ((x :: r').take (n - 1)) k || env.cls ((x :: r').take (n - 1)) kf) then !inv
          else matchLoop env inv k kf fuel wc r''
      | _ => false
    else
      match mbtowc env (c :: r) with
      | none => false
      | some (w, l) => if (w : Int) = k ∨ (w : Int) = kf then !inv else matchLoop env inv k kf fuel w ((c :: r).drop l) := rfl

theorem loop_chr (env : Env) (inv : Bool) (k kf : Int) (fuel wc c : Nat) (es : List Elem) (rest : List Nat) (ha : Ascii c) (h93 : c ≠ 93)
    (h45 : c = 45 → es = []) (h91 : c = 91 → Plain es) :
    matchLoop env inv k kf (fuel + 1) wc (c :: (texts es ++ 93 :: rest)) =
      if (k = c ∨ kf = c) then !inv else matchLoop env inv k kf fuel c (texts es ++ 93 :: rest) := by
  rw [loop_cons]
  rw [if_neg h93, if_neg (follow_head h45 rest), if_neg (by
    rintro ⟨h1, h2⟩
    rw [plain_head (h91 h1)] at h2
    exact Bool.noConfusion h2)]
  simp only [mbtowc, if_pos ha.2, List.drop_succ_cons, List.drop_zero]
  congr 1
  simp [eq_comm]

theorem loop_spec (env : Env) (inv : Bool) (k kf : Int) (h0 : 0 ≤ k) (h1 : k < 2 ^ 31) (h2 : 0 ≤ kf) (h3 : kf < 2 ^ 31) (rest : List Nat) (es : List Elem)
    (hes : Inside es) (fuel wc : Nat) (hf : (texts es).length + 1 ≤ fuel) :
    matchLoop env inv k kf fuel wc (texts es ++ 93 :: rest) = (inv != es.any (fun e => e.has env.cls k || e.has env.cls kf)) := by
  induction es generalizing fuel wc with
  | nil =>
    obtain ⟨fuel, rfl⟩ : ∃ n, fuel = n + 1 := ⟨fuel - 1, by omega⟩
    simp [texts, matchLoop]
  | cons e es ih =>
    cases e with
    | chr c =>
      obtain ⟨ha, h93, h45, h91, hi⟩ := hes
      have hl : (texts (Elem.chr c :: es)).length = (texts es).length + 1 := by simp [texts, Elem.text]
      obtain ⟨fuel, rfl⟩ : ∃ n, fuel = n + 1 := ⟨fuel - 1, by omega⟩
      have ht : texts (Elem.chr c :: es) ++ 93 :: rest = c :: (texts es ++ 93 :: rest) := by simp [texts, Elem.text]
      rw [ht, loop_chr env inv k kf fuel wc c es rest ha h93 h45 h91, ih hi fuel c (by omega)]
      simp only [List.any_cons, Elem.has]
      split <;> rename_i hc
      · rcases hc with hc | hc <;> simp [hc]
      · have : ¬ k = c ∧ ¬ kf = c := by omega
        simp [this]
    | range a b =>
      obtain ⟨ha, hb, hab, ha93, ha45, hb93, h45, h91, hi⟩ := hes
      have hl : (texts (Elem.range a b :: es)).length = (texts es).length + 3 := by simp [texts, Elem.text]
      obtain ⟨fuel, rfl⟩ : ∃ n, fuel = n + 3 := ⟨fuel - 3, by omega⟩
      have ht : texts (Elem.range a b :: es) ++ 93 :: rest = a :: 45 :: b :: (texts es ++ 93 :: rest) := by simp [texts, Elem.text]
      rw [ht, loop_cons]
      rw [if_neg ha93, if_neg (by rintro ⟨h, -⟩; exact ha45 h), if_neg (by simp [isZ])]
      simp only [mbtowc, if_pos ha.2, List.drop_succ_cons, List.drop_zero]
      rw [loop_cons, if_neg (show ¬ (45 = 93) by decide), if_pos (show 45 = 45 ∧ (b :: (texts es ++ 93 :: rest)).headD 0 ≠ 93 from ⟨rfl, hb93⟩)]
      simp only [mbtowc, if_pos hb.2, List.drop_succ_cons, List.drop_zero]
      rw [loop_chr env inv k kf fuel a b es rest hb hb93 h45 h91, ih hi fuel b (by omega), within_iff h0 h1 ha.2 hb.2 hab, within_iff h2 h3 ha.2 hb.2 hab]
      simp only [List.any_cons, Elem.has]
      by_cases hk : ((a : Int) ≤ k ∧ k ≤ b)
      · simp [hk, hab]
      · by_cases hkf : ((a : Int) ≤ kf ∧ kf ≤ b)
        · simp [hkf, hab]
        · have x1 : ¬ ((a : Int) = k ∨ (a : Int) = kf) := by omega
          have x2 : ¬ (k = b ∨ kf = b) := by omega
          rw [if_neg x1, if_neg (by simp [hk, hkf]), if_neg x2]
          simp [hk, hkf]
    | cls n =>
      obtain ⟨hn, hlen, hc, hi⟩ := hes
      have hl : (texts (Elem.cls n :: es)).length = (texts es).length + n.length + 4 := by simp [texts, Elem.text]; omega
      obtain ⟨fuel, rfl⟩ : ∃ n, fuel = n + 1 := ⟨fuel - 1, by omega⟩
      cases n with
      | nil => exact absurd rfl hn
      | cons x n =>
        have ht : texts (Elem.cls (x :: n) :: es) ++ 93 :: rest = 91 :: 58 :: x :: (n ++ 58 :: 93 :: (texts es ++ 93 :: rest)) := by simp [texts, Elem.text]
        rw [ht, loop_cons]
        rw [if_neg (by decide), if_neg (by simp), if_pos ⟨rfl, rfl⟩]
        dsimp only
        rw [skipTo_name n (fun c h => hc c (by simp [h])) x (hc x (by simp)).1]
        dsimp only
        have hlen' : n.length < 15 := by simp at hlen; omega
        have ht' : (x :: (n ++ 58 :: 93 :: (texts es ++ 93 :: rest))).take (0 + n.length + 2 - 1) = x :: n := by
          rw [show 0 + n.length + 2 - 1 = n.length + 1 by omega, List.take_succ_cons, List.take_left]
        rw [ht', ih hi fuel wc (by simp at hl; omega)]
        simp only [List.any_cons, Elem.has]
        by_cases hb : (env.cls (x :: n) k || env.cls (x :: n) kf) = true
        · rw [if_pos ⟨trivial, by omega, hb⟩, hb]; simp
        · rw [if_neg (by simp [hb])]
          simp only [Bool.not_eq_true] at hb
          rw [hb]; simp

theorem scan_cons (fuel k c : Nat) (r : List Nat) : bracketScan (fuel + 1) (c :: r) k =
    if c = 93 then some (k + 1)
    else if c = 91 ∧ isZ (r.headD 0) then
      match r with
      | z :: x :: r' => (match skipTo z x r' (k + 3) with | some (r'', k') => bracketScan fuel r'' k' | none => none)
      | _ => none
    else bracketScan fuel r (k + 1) := rfl

theorem scan_chr (fuel k c : Nat) (es : List Elem) (rest : List Nat) (h93 : c ≠ 93) (h91 : c = 91 → Plain es) :
    bracketScan (fuel + 1) (c :: (texts es ++ 93 :: rest)) k = bracketScan fuel (texts es ++ 93 :: rest) (k + 1) := by
  rw [scan_cons, if_neg h93, if_neg (by
    rintro ⟨h1, h2⟩
    rw [plain_head (h91 h1)] at h2
    exact Bool.noConfusion h2)]

theorem scan_spec (rest : List Nat) (es : List Elem) (hes : Inside es) (fuel k : Nat) (hf : (texts es).length + 1 ≤ fuel) :
    bracketScan fuel (texts es ++ 93 :: rest) k = some (k + (texts es).length + 1) := by
  induction es generalizing fuel k with
  | nil =>
    obtain ⟨fuel, rfl⟩ : ∃ n, fuel = n + 1 := ⟨fuel - 1, by omega⟩
    simp [texts, scan_cons]
  | cons e es ih =>
    cases e with
    | chr c =>
      obtain ⟨ha, h93, h45, h91, hi⟩ := hes
      have hl : (texts (Elem.chr c :: es)).length = (texts es).length + 1 := by simp [texts, Elem.text]
      obtain ⟨fuel, rfl⟩ : ∃ n, fuel = n + 1 := ⟨fuel - 1, by omega⟩
      have ht : texts (Elem.chr c :: es) ++ 93 :: rest = c :: (texts es ++ 93 :: rest) := by simp [texts, Elem.text]
      rw [ht, scan_chr fuel k c es rest h93 h91, ih hi fuel _ (by omega), hl]
      congr 1; omega
    | range a b =>
      obtain ⟨ha, hb, hab, ha93, ha45, hb93, h45, h91, hi⟩ := hes
      have hl : (texts (Elem.range a b :: es)).length = (texts es).length + 3 := by simp [texts, Elem.text]
      obtain ⟨fuel, rfl⟩ : ∃ n, fuel = n + 3 := ⟨fuel - 3, by omega⟩
      have ht : texts (Elem.range a b :: es) ++ 93 :: rest = a :: 45 :: b :: (texts es ++ 93 :: rest) := by simp [texts, Elem.text]
      rw [ht, scan_cons, if_neg ha93, if_neg (by simp [isZ]), scan_cons, if_neg (by decide), if_neg (by simp), scan_chr fuel _ b es rest hb93 h91,
        ih hi fuel _ (by omega), hl]
      congr 1; omega
    | cls n =>
      obtain ⟨hn, hlen, hc, hi⟩ := hes
      have hl : (texts (Elem.cls n :: es)).length = (texts es).length + n.length + 4 := by simp [texts, Elem.text]; omega
      obtain ⟨fuel, rfl⟩ : ∃ n, fuel = n + 1 := ⟨fuel - 1, by omega⟩
      cases n with
      | nil => exact absurd rfl hn
      | cons x n =>
        have ht : texts (Elem.cls (x :: n) :: es) ++ 93 :: rest = 91 :: 58 :: x :: (n ++ 58 :: 93 :: (texts es ++ 93 :: rest)) := by simp [texts, Elem.text]
        rw [ht, scan_cons, if_neg (by decide), if_pos ⟨rfl, rfl⟩]
        dsimp only
        rw [skipTo_name n (fun c h => hc c (by simp [h])) x (hc x (by simp)).1]
        dsimp only
        rw [ih hi fuel _ (by simp at hl; omega), hl]
        simp only [List.length_cons]
        congr 1; omega

/-- With the first element, behind '[' and the negation. -/
theorem scan_first (rest : List Nat) (es : List Elem) (hes : Elems es) (k h : Nat) (p : List Nat) (e : texts es ++ 93 :: rest = h :: p) :
    (if h = 93 then bracketScan (p.length + 1) p (k + 1) else bracketScan ((h :: p).length + 1) (h :: p) k) = some (k + (texts es).length + 1) := by
  cases es with
  | nil => exact absurd hes (by simp [Elems])
  | cons el es =>
    cases el with
    | chr c =>
      obtain ⟨ha, h91, hi⟩ := hes
      have ht : texts (Elem.chr c :: es) ++ 93 :: rest = c :: (texts es ++ 93 :: rest) := by simp [texts, Elem.text]
      have hl : (texts (Elem.chr c :: es)).length = (texts es).length + 1 := by simp [texts, Elem.text]
      rw [ht] at e
      injection e with e1 e2
      subst e1 e2
      rw [hl]
      split
      · rw [scan_spec rest es hi _ _ (by simp)]
        congr 1; omega
      · rename_i h93
        rw [scan_chr _ k c es rest h93 h91, scan_spec rest es hi _ _ (by simp)]
        congr 1; omega
    | range a b =>
      obtain ⟨ha, hb, hab, hb93, h45, h91, hi⟩ := hes
      have hl : (texts (Elem.range a b :: es)).length = (texts es).length + 3 := by simp [texts, Elem.text]
      have ht : texts (Elem.range a b :: es) ++ 93 :: rest = a :: 45 :: b :: (texts es ++ 93 :: rest) := by simp [texts, Elem.text]
      rw [ht] at e
      injection e with e1 e2
      subst e1 e2
      rw [hl]
      simp only [List.length_cons]
      split
      · rw [scan_cons, if_neg (by decide), if_neg (by simp), scan_chr _ _ b es rest hb93 h91, scan_spec rest es hi _ _ (by simp)]
        congr 1; omega
      · rename_i h93
        rw [scan_cons, if_neg h93, if_neg (by simp [isZ]), scan_cons, if_neg (by decide), if_neg (by simp), scan_chr _ _ b es rest hb93 h91,
          scan_spec rest es hi _ _ (by simp)]
        congr 1; omega
    | cls n =>
      have hi : Inside (Elem.cls n :: es) := hes
      have h93 : h = 91 := by
        have : texts (Elem.cls n :: es) ++ 93 :: rest = 91 :: 58 :: (n ++ [58, 93] ++ texts es ++ 93 :: rest) := by simp [texts, Elem.text]
        rw [this] at e
        injection e with e1 e2
        exact e1.symm
      rw [if_neg (by rw [h93]; decide), ← e]
      exact scan_spec rest _ hi _ _ (by simp)

theorem texts_head (es : List Elem) (hes : Elems es) (rest : List Nat) : ∃ c t, texts es = c :: t ∧ texts es ++ rest = c :: (t ++ rest) := by
  cases h : texts es with
  | nil =>
    cases es with
    | nil => exact absurd hes (by simp [Elems])
    | cons e es => cases e <;> simp [texts, Elem.text] at h
  | cons c t => exact ⟨c, t, rfl, rfl⟩

theorem bracketEnd_set (neg : Option Bool) (es : List Elem) (hes : Elems es) (hneg : neg = none → (texts es).head? ≠ some 33 ∧ (texts es).head? ≠ some 94)
    (rest : List Nat) : bracketEnd ((Item.set neg es).text.tail ++ rest) = some (Item.set neg es).text.length := by
  obtain ⟨c, t, h1, h2⟩ := texts_head es hes (93 :: rest)
  have key := fun k => scan_first rest es hes k c _ h2
  cases neg with
  | none =>
    have := hneg rfl
    rw [h1] at this
    simp only [List.head?_cons, ne_eq, Option.some.injEq] at this
    have e : (Item.set none es).text.tail ++ rest = c :: (t ++ 93 :: rest) := by rw [← h2]; simp [Item.text]
    have hl : (Item.set none es).text.length = 1 + (texts es).length + 1 := by simp [Item.text]; omega
    unfold bracketEnd
    rw [e, hl, ← key 1, if_neg (by simp only [List.headD_cons]; omega)]
    by_cases hc : c = 93 <;> simp [hc]
  | some b =>
    have e : (Item.set (some b) es).text.tail ++ rest = (if b then 94 else 33) :: c :: (t ++ 93 :: rest) := by rw [← h2]; cases b <;> simp [Item.text]
    have hl : (Item.set (some b) es).text.length = 2 + (texts es).length + 1 := by cases b <;> simp [Item.text] <;> omega
    unfold bracketEnd
    rw [e, hl, ← key 2, if_pos (by cases b <;> simp)]
    by_cases hc : c = 93 <;> simp [hc]

/-- Behind '[' and the negation. -/
theorem match_first (env : Env) (inv : Bool) (k kf : Int) (h0 : 0 ≤ k) (h1 : k < 2 ^ 31) (h2 : 0 ≤ kf) (h3 : kf < 2 ^ 31) (h4 : kf = 45 → k = 45)
    (h5 : kf = 93 → k = 93) (es : List Elem) (hes : Elems es) (rest : List Nat) (h : Nat) (p : List Nat) (e : texts es ++ 93 :: rest = h :: p) :
    (if h = 93 ∨ h = 45 then if k = h then !inv else matchLoop env inv k kf ((h :: p).length + 1) h p
    else matchLoop env inv k kf ((h :: p).length + 1) 91 (h :: p)) = (inv != es.any (fun e => e.has env.cls k || e.has env.cls kf)) := by
  cases es with
  | nil => exact absurd hes (by simp [Elems])
  | cons el es =>
    cases el with
    | chr c =>
      obtain ⟨ha, h91, hi⟩ := hes
      have ht : texts (Elem.chr c :: es) ++ 93 :: rest = c :: (texts es ++ 93 :: rest) := by simp [texts, Elem.text]
      by_cases hc : h = 93 ∨ h = 45
      · rw [ht] at e
        injection e with e1 e2
        subst e1 e2
        rw [if_pos hc, loop_spec env inv k kf h0 h1 h2 h3 rest es hi _ _ (by simp; omega)]
        simp only [List.any_cons, Elem.has]
        split <;> rename_i hk
        · simp [hk]
        · have : ¬ kf = c := by omega
          simp [hk, this]
      · have hcc : c = h := by rw [ht] at e; injection e
        rw [if_neg hc]
        have : Inside (Elem.chr c :: es) := ⟨ha, by omega, by omega, h91, hi⟩
        rw [← e]
        exact loop_spec env inv k kf h0 h1 h2 h3 rest _ this _ 91 (by simp)
    | range a b =>
      obtain ⟨ha, hb, hab, hb93, h45, h91, hi⟩ := hes
      have ht : texts (Elem.range a b :: es) ++ 93 :: rest = a :: 45 :: b :: (texts es ++ 93 :: rest) := by simp [texts, Elem.text]
      by_cases hc : h = 93 ∨ h = 45
      · rw [ht] at e
        injection e with e1 e2
        subst e1 e2
        simp only [List.length_cons]
        rw [if_pos hc, loop_cons, if_neg (show ¬ (45 = 93) by decide),
          if_pos (show 45 = 45 ∧ (b :: (texts es ++ 93 :: rest)).headD 0 ≠ 93 from ⟨rfl, hb93⟩)]
        simp only [mbtowc, if_pos hb.2, List.drop_succ_cons, List.drop_zero]
        rw [loop_chr env inv k kf _ a b es rest hb hb93 h45 h91, loop_spec env inv k kf h0 h1 h2 h3 rest es hi _ _ (by simp; omega),
          within_iff h0 h1 ha.2 hb.2 hab, within_iff h2 h3 ha.2 hb.2 hab]
        simp only [List.any_cons, Elem.has]
        by_cases hk : ((a : Int) ≤ k ∧ k ≤ b)
        · simp [hk, hab]
        · by_cases hkf : ((a : Int) ≤ kf ∧ kf ≤ b)
          · simp [hkf, hab]
          · have x1 : ¬ (k = a) := by omega
            have x2 : ¬ (k = b ∨ kf = b) := by omega
            rw [if_neg x1, if_neg (by simp [hk, hkf]), if_neg x2]
            simp [hk, hkf]
      · have hcc : a = h := by rw [ht] at e; injection e
        have : Inside (Elem.range a b :: es) := ⟨ha, hb, hab, by omega, by omega, hb93, h45, h91, hi⟩
        rw [if_neg hc, ← e]
        exact loop_spec env inv k kf h0 h1 h2 h3 rest _ this _ _ (by simp)
    | cls n =>
      have hi : Inside (Elem.cls n :: es) := hes
      have h93 : h = 91 := by
        have : texts (Elem.cls n :: es) ++ 93 :: rest = 91 :: 58 :: (n ++ [58, 93] ++ texts es ++ 93 :: rest) := by simp [texts, Elem.text]
        rw [this] at e
        injection e with e1 e2
        exact e1.symm
      rw [if_neg (by omega), ← e]
      exact loop_spec env inv k kf h0 h1 h2 h3 rest _ hi _ _ (by simp)

theorem matchBracket_set (env : Env) (neg : Option Bool) (es : List Elem) (hes : Elems es)
    (hneg : neg = none → (texts es).head? ≠ some 33 ∧ (texts es).head? ≠ some 94) (rest : List Nat) (k kf : Int) (h0 : 0 ≤ k) (h1 : k < 2 ^ 31)
    (h2 : 0 ≤ kf) (h3 : kf < 2 ^ 31) (h4 : kf = 45 → k = 45) (h5 : kf = 93 → k = 93) :
    matchBracket env ((Item.set neg es).text.tail ++ rest) k kf = (neg.isSome != es.any (fun e => e.has env.cls k || e.has env.cls kf)) := by
  obtain ⟨c, t, e1, e2⟩ := texts_head es hes (93 :: rest)
  have key := fun inv => match_first env inv k kf h0 h1 h2 h3 h4 h5 es hes rest c _ e2
  cases neg with
  | none =>
    have := hneg rfl
    rw [e1] at this
    simp only [List.head?_cons, ne_eq, Option.some.injEq] at this
    have e : (Item.set none es).text.tail ++ rest = c :: (t ++ 93 :: rest) := by rw [← e2]; simp [Item.text]
    have hc : ¬ ((c :: (t ++ 93 :: rest)).headD 0 = 94 ∨ (c :: (t ++ 93 :: rest)).headD 0 = 33) := by simp only [List.headD_cons]; omega
    unfold matchBracket
    rw [e, if_neg hc, decide_eq_false hc]
    exact key false
  | some b =>
    have e : (Item.set (some b) es).text.tail ++ rest = (if b then 94 else 33) :: c :: (t ++ 93 :: rest) := by rw [← e2]; cases b <;> simp [Item.text]
    unfold matchBracket
    have hc : (((if b then 94 else 33) :: c :: (t ++ 93 :: rest)).headD 0 = 94 ∨ ((if b then 94 else 33) :: c :: (t ++ 93 :: rest)).headD 0 = 33) := by
      cases b <;> simp
    rw [e, if_pos hc, decide_eq_true hc]
    exact key true

/-! ## Tokens -/

def isStar : Item → Bool
  | .star => true
  | _ => false

theorem textOf_cons (i : Item) (is : List Item) : textOf (i :: is) = i.text ++ textOf is := by simp [textOf]

theorem scan_none (q : List Nat) (h : 93 ∉ q) (fuel k : Nat) : bracketScan fuel q k = none := by
  induction fuel generalizing q k with
  | zero => rfl
  | succ fuel ih =>
    cases q with
    | nil => rfl
    | cons c r =>
      simp only [List.mem_cons, not_or] at h
      have hs : ∀ (z x : Nat) (r : List Nat) (k : Nat), 93 ∉ r → skipTo z x r k = none := by
        intro z x r
        induction r generalizing x with
        | nil => intro k _; rfl
        | cons d r ih =>
          intro k h
          simp only [List.mem_cons, not_or] at h
          rw [skipTo, if_neg (by omega), ih d _ h.2]
      rw [scan_cons, if_neg (by omega)]
      split
      · split
        · rename_i z x r' _
          rw [hs z x r' _ (fun hm => h.2 (by simp [hm]))]
        · rfl
      · exact ih r h.2 _

theorem bracketEnd_none (p : List Nat) (h : 93 ∉ p) : bracketEnd p = none := by
  have ht : 93 ∉ p.tail := fun hm => h (List.mem_of_mem_tail hm)
  have ht2 : 93 ∉ p.tail.tail := fun hm => ht (List.mem_of_mem_tail hm)
  unfold bracketEnd
  by_cases h1 : p.headD 0 = 94 ∨ p.headD 0 = 33
  · rw [if_pos h1]
    dsimp only
    by_cases h2 : p.tail.headD 0 = 93
    · rw [if_pos h2]; exact scan_none _ ht2 _ _
    · rw [if_neg h2]; exact scan_none _ ht _ _
  · rw [if_neg h1]
    dsimp only
    by_cases h2 : p.headD 0 = 93
    · rw [if_pos h2]; exact scan_none _ ht _ _
    · rw [if_neg h2]; exact scan_none _ h _ _

theorem items_tail {ne : Bool} {i : Item} {is : List Item} (h : Items ne (i :: is)) : Items ne is := by
  cases i with
  | lit e c => cases e with
    | true => exact h.2.2
    | false => exact h.2.2.2.2.2
  | any => exact h
  | star => exact h
  | set neg es => exact h.2.2

theorem text_ne_nil {ne : Bool} {i : Item} {is : List Item} (h : Items ne (i :: is)) : i.text ≠ [] := by
  cases i with
  | lit e c => cases e <;> simp [Item.text]
  | any => simp [Item.text]
  | star => simp [Item.text]
  | set neg es => cases neg with
    | none => simp [Item.text]
    | some b => cases b <;> simp [Item.text]

theorem next_item {env : Env} {fl : Flags} (hf : FoldOk env) {i : Item} {is : List Item} (h : Items fl.noescape (i :: is)) (hs : isStar i = false) :
    ∃ t, patNext env fl.noescape (textOf (i :: is)) = (t, i.text.length) ∧ t ≠ .fin ∧ t ≠ .unmatchable ∧ t ≠ .star ∧
      (t = .chr 47 ↔ ∃ e, i = .lit e 47) ∧
      ∀ k : Nat, 0 < k → k < 128 → fits env fl t (textOf (i :: is)) k = i.one env fl k := by
  have hfit : ∀ (c : Nat) (e : Bool) (p : List Nat) (k : Nat), fits env fl (.chr c) p k = (Item.lit e c).one env fl k := by
    intro c e p k
    cases hc : fl.casefold <;> simp [fits, Item.one, hc]
  rw [textOf_cons]
  cases i with
  | star => exact absurd hs (by simp [isStar])
  | any => exact ⟨.question, rfl, by simp, by simp, by simp, by simp, fun k _ _ => rfl⟩
  | lit e c =>
    cases e with
    | true =>
      obtain ⟨hne, ha, -⟩ := h
      refine ⟨.chr c, ?_, by simp, by simp, by simp, by simp, fun k _ _ => hfit c true _ k⟩
      have := ha.2
      simp [Item.text, patNext, hne, show ¬ 128 ≤ c by omega]
    | false =>
      obtain ⟨ha, h42, h63, h92, h91, -⟩ := h
      refine ⟨.chr c, ?_, by simp, by simp, by simp, by simp, fun k _ _ => hfit c false _ k⟩
      have h1 : ¬ (c = 92 ∧ textOf is ≠ [] ∧ (!fl.noescape) = true) := by
        rintro ⟨x, y, z⟩
        rcases h92 x with hn | hn
        · simp [hn] at z
        · exact y (by rw [hn]; rfl)
      show patNext env fl.noescape (c :: textOf is) = (Tok.chr c, 1)
      rw [patNext, if_neg h1]
      by_cases h : c = 91
      · rw [if_pos h, bracketEnd_none _ (h91 h), h]
      · rw [if_neg h, if_neg h42, if_neg h63, if_neg (by have := ha.2; omega)]
  | set neg es =>
    obtain ⟨hes, hneg, -⟩ := h
    have hb := bracketEnd_set neg es hes hneg (textOf is)
    obtain ⟨p, hp⟩ : ∃ p, (Item.set neg es).text ++ textOf is = 91 :: p := by
      cases neg with
      | none => simp [Item.text]
      | some b => cases b <;> simp [Item.text]
    have hp' : (Item.set neg es).text.tail ++ textOf is = p := by
      cases neg with
      | none => simpa [Item.text] using hp
      | some b => cases b <;> simpa [Item.text] using hp
    rw [hp'] at hb
    refine ⟨.bracket, ?_, by simp, by simp, by simp, by simp, ?_⟩
    · rw [hp, patNext, if_neg (by omega), if_pos rfl, hb]
    · intro k h0 h1
      obtain ⟨f1, f2, f3, f4, -⟩ := hf k (by omega) (by omega)
      rw [hp]
      cases hc : fl.casefold with
      | false =>
        simp only [fits, hc, List.tail_cons, Item.one]
        have := matchBracket_set env neg es hes hneg (textOf is) k k (by omega) (by omega) (by omega) (by omega) id id
        rw [hp'] at this
        simpa using this
      | true =>
        simp only [fits, hc, List.tail_cons, Item.one]
        have := matchBracket_set env neg es hes hneg (textOf is) k (env.fold k) (by omega) (by omega) f1 f2 f3 f4
        rw [hp'] at this
        simpa using this

/-! ## Items -/

/-- What a list of items matches, without regard to slashes and periods. -/
def M (env : Env) (fl : Flags) : List Item → List Nat → Prop
  | [], s => s = []
  | i :: is, s => if isStar i then ∃ u v, s = u ++ v ∧ M env fl is v else ∃ c s', s = c :: s' ∧ i.one env fl c = true ∧ M env fl is s'

section
variable {env : Env} {fl : Flags}

theorem M_star {i : Item} (h : isStar i = true) (is : List Item) (s : List Nat) : M env fl (i :: is) s ↔ ∃ u v, s = u ++ v ∧ M env fl is v := by
  rw [M, if_pos h]

theorem M_one {i : Item} (h : isStar i = false) (is : List Item) (s : List Nat) :
    M env fl (i :: is) s ↔ ∃ c s', s = c :: s' ∧ i.one env fl c = true ∧ M env fl is s' := by
  rw [M, if_neg (by simp [h])]

theorem M_nil {s : List Nat} : M env fl [] s ↔ s = [] := Iff.rfl

theorem M_append (a b : List Item) (s : List Nat) : M env fl (a ++ b) s ↔ ∃ u v, s = u ++ v ∧ M env fl a u ∧ M env fl b v := by
  induction a generalizing s with
  | nil =>
    simp only [List.nil_append, M_nil]
    exact ⟨fun h => ⟨[], s, rfl, rfl, h⟩, fun ⟨u, v, h1, h2, h3⟩ => by rw [h1, h2]; exact h3⟩
  | cons i a ih =>
    rw [List.cons_append]
    by_cases hs : isStar i = true
    · rw [M_star hs]
      constructor
      · rintro ⟨u, v, rfl, h⟩
        obtain ⟨x, y, rfl, h1, h2⟩ := (ih v).1 h
        exact ⟨u ++ x, y, by simp, (M_star hs a _).2 ⟨u, x, rfl, h1⟩, h2⟩
      · rintro ⟨u, v, rfl, h1, h2⟩
        obtain ⟨x, y, rfl, h3⟩ := (M_star hs a _).1 h1
        exact ⟨x, y ++ v, by simp, (ih _).2 ⟨y, v, rfl, h3, h2⟩⟩
    · rw [Bool.not_eq_true] at hs
      rw [M_one hs]
      constructor
      · rintro ⟨c, s', rfl, h1, h⟩
        obtain ⟨x, y, rfl, h2, h3⟩ := (ih s').1 h
        exact ⟨c :: x, y, rfl, (M_one hs a _).2 ⟨c, x, rfl, h1, h2⟩, h3⟩
      · rintro ⟨u, v, rfl, h1, h2⟩
        obtain ⟨c, s', rfl, h3, h4⟩ := (M_one hs a _).1 h1
        exact ⟨c, s' ++ v, rfl, h3, (ih _).2 ⟨s', v, rfl, h4, h2⟩⟩

def NoStar (is : List Item) : Prop := ∀ i ∈ is, isStar i = false

theorem M_length {is : List Item} (h : NoStar is) {s : List Nat} (hm : M env fl is s) : s.length = is.length := by
  induction is generalizing s with
  | nil => rw [M_nil.1 hm]; rfl
  | cons i is ih =>
    obtain ⟨c, s', rfl, -, h2⟩ := (M_one (h i (by simp)) is s).1 hm
    simp [ih (fun j hj => h j (by simp [hj])) h2]

/-- The string: characters of the portable set. -/
def Str (s : List Nat) : Prop := ∀ c ∈ s, Ascii c

theorem strNext_ascii {c : Nat} (h : Ascii c) (s : List Nat) : strNext env (c :: s) = ((c : Int), 1) := by
  have := h.2
  rw [strNext, if_neg (by omega)]

theorem text_pos {ne : Bool} {i : Item} {is : List Item} (h : Items ne (i :: is)) : 0 < i.text.length := List.length_pos_iff.2 (text_ne_nil h)

theorem textOf_length {ne : Bool} {is : List Item} (h : Items ne is) : is.length ≤ (textOf is).length := by
  induction is with
  | nil => simp
  | cons i is ih =>
    have := text_pos h
    have := ih (items_tail h)
    rw [textOf_cons]
    simp only [List.length_cons, List.length_append]
    omega

theorem drop_text (i : Item) (is : List Item) : (textOf (i :: is)).drop i.text.length = textOf is := by
  rw [textOf_cons, List.drop_left]

/-- The first loop, on items. -/
theorem head_spec (hf : FoldOk env) (is : List Item) (hi : Items fl.noescape is) (s : List Nat) (hs : Str s) (fuel : Nat) (hfu : is.length + 1 ≤ fuel) :
    (∃ b, headLoop env fl fuel (textOf is) s = .result b ∧ (b = true ↔ M env fl is s)) ∨
    ∃ r s', headLoop env fl fuel (textOf is) s = .star (textOf r) s' ∧ Items fl.noescape r ∧ Str s' ∧ (M env fl is s ↔ M env fl (.star :: r) s') := by
  induction is generalizing s fuel with
  | nil =>
    obtain ⟨fuel, rfl⟩ : ∃ n, fuel = n + 1 := ⟨fuel - 1, by omega⟩
    left
    cases s with
    | nil => exact ⟨true, by simp [headLoop, textOf, patNext, strNext], by simp [M_nil]⟩
    | cons c s =>
      have ha := hs c (by simp)
      have h0 := ha.1
      refine ⟨false, ?_, by simp [M_nil]⟩
      show headLoop env fl (fuel + 1) [] (c :: s) = _
      rw [headLoop]
      simp only [patNext, strNext_ascii ha]
      rw [if_neg (by omega), if_neg (by simp [fits])]
  | cons i is ih =>
    obtain ⟨fuel, rfl⟩ : ∃ n, fuel = n + 1 := ⟨fuel - 1, by omega⟩
    simp only [List.length_cons] at hfu
    cases hst : isStar i with
    | true =>
      have : i = .star := by cases i <;> simp [isStar] at hst ⊢
      subst this
      right
      exact ⟨is, s, by simp [headLoop, textOf, Item.text, patNext], items_tail hi, hs, Iff.rfl⟩
    | false =>
      obtain ⟨t, h1, h2, h3, h4, -, h6⟩ := next_item hf hi hst
      have hstep : headLoop env fl (fuel + 1) (textOf (i :: is)) s =
          (if (strNext env s).1 ≤ 0 then .result (t = .fin)
          else if fits env fl t (textOf (i :: is)) (strNext env s).1 then
            headLoop env fl fuel ((textOf (i :: is)).drop i.text.length) (s.drop (strNext env s).2)
          else .result false) := by
        rw [headLoop, h1]
        cases t <;> first | rfl | exact absurd rfl h3 | exact absurd rfl h4
      rw [hstep, drop_text]
      cases s with
      | nil =>
        left
        refine ⟨false, ?_, ?_⟩
        · simp [strNext, h2]
        · rw [M_one hst]; simp
      | cons c s =>
        have ha := hs c (by simp)
        have h0 := ha.1
        rw [strNext_ascii ha, if_neg (by simp only; omega), h6 c ha.1 ha.2]
        simp only [List.drop_succ_cons, List.drop_zero]
        cases hone : i.one env fl c with
        | false =>
          left
          refine ⟨false, by simp, ?_⟩
          rw [M_one hst]
          simp [hone]
        | true =>
          have hM : M env fl (i :: is) (c :: s) ↔ M env fl is s := by
            rw [M_one hst]
            constructor
            · rintro ⟨c', s', he, -, hm⟩
              injection he with _ he
              rw [he]; exact hm
            · intro hm; exact ⟨c, s, rfl, hone, hm⟩
          rw [if_pos rfl, hM]
          exact ih (items_tail hi) s (fun x hx => hs x (by simp [hx])) fuel (by omega)

/-- The items up to the last star, and those behind it. -/
def split : List Item → List Item × List Item
  | [] => ([], [])
  | i :: is => if (split is).1 = [] ∧ isStar i = false then ([], i :: (split is).2) else (i :: (split is).1, (split is).2)

theorem split_append (is : List Item) : (split is).1 ++ (split is).2 = is := by
  induction is with
  | nil => rfl
  | cons i is ih =>
    rw [split]
    split
    · rename_i h
      rw [h.1, List.nil_append] at ih
      rw [List.nil_append]
      rw [ih]
    · rw [List.cons_append, ih]

theorem split_noStar (is : List Item) : NoStar (split is).2 := by
  induction is with
  | nil => intro i hi; simp [split] at hi
  | cons i is ih =>
    rw [split]
    split
    · rename_i h
      intro j hj
      rcases List.mem_cons.1 hj with rfl | hj
      · exact h.2
      · exact ih j hj
    · exact ih

/-- Empty, or with a star at the end. -/
def EndsStar (is : List Item) : Prop := is = [] ∨ ∃ a, is = a ++ [.star]

theorem split_endsStar (is : List Item) : EndsStar (split is).1 := by
  induction is with
  | nil => left; rfl
  | cons i is ih =>
    rw [split]
    split
    · left; rfl
    · rename_i h
      right
      rcases ih with h1 | ⟨a, ha⟩
      · have : isStar i = true := by
          cases hi : isStar i with
          | true => rfl
          | false => exact absurd ⟨h1, hi⟩ h
        have : i = .star := by cases i <;> simp [isStar] at this ⊢
        exact ⟨[], by rw [this, h1]; rfl⟩
      · exact ⟨i :: a, by show i :: (split is).1 = _; rw [ha]; rfl⟩

theorem tailScan_spec (hf : FoldOk env) (is : List Item) (hi : Items fl.noescape is) (pt : List Nat) (cnt fuel : Nat) (hfu : is.length + 1 ≤ fuel) :
    tailScan env fl fuel (textOf is) pt cnt =
      some (some (if (split is).1 = [] then (pt, cnt + (split is).2.length) else (textOf (split is).2, (split is).2.length))) := by
  induction is generalizing pt cnt fuel with
  | nil =>
    obtain ⟨fuel, rfl⟩ : ∃ n, fuel = n + 1 := ⟨fuel - 1, by omega⟩
    simp [tailScan, textOf, split]
  | cons i is ih =>
    obtain ⟨fuel, rfl⟩ : ∃ n, fuel = n + 1 := ⟨fuel - 1, by omega⟩
    simp only [List.length_cons] at hfu
    have hne : textOf (i :: is) ≠ [] := by
      rw [textOf_cons]
      intro h
      exact text_ne_nil hi (List.append_eq_nil_iff.1 h).1
    cases hst : isStar i with
    | true =>
      have : i = .star := by cases i <;> simp [isStar] at hst ⊢
      subst this
      have ht : (textOf (Item.star :: is)).tail = textOf is := by simp [textOf, Item.text]
      rw [tailScan, if_neg hne, show patNext env fl.noescape (textOf (Item.star :: is)) = (.star, 1) by simp [textOf, Item.text, patNext]]
      simp only [ht]
      have hsp : split (Item.star :: is) = (Item.star :: (split is).1, (split is).2) := by rw [split, if_neg (by simp [isStar])]
      rw [ih (items_tail hi) _ _ fuel (by omega), hsp]
      have := split_append is
      by_cases h : (split is).1 = []
      · rw [h, List.nil_append] at this
        simp [h, this]
      · simp [h]
    | false =>
      obtain ⟨t, h1, h2, h3, h4, -, -⟩ := next_item hf hi hst
      have hstep : tailScan env fl (fuel + 1) (textOf (i :: is)) pt cnt = tailScan env fl fuel ((textOf (i :: is)).drop i.text.length) pt (cnt + 1) := by
        rw [tailScan, if_neg hne, h1]
        cases t <;> first | rfl | exact absurd rfl h3 | exact absurd rfl h4
      rw [hstep, drop_text, ih (items_tail hi) _ _ fuel (by omega)]
      by_cases h : (split is).1 = []
      · simp only [split, h, hst]
        simp
        omega
      · simp [split, h, hst]

theorem back_spec (n : Nat) (r : List Nat) (h : Str r) (hn : n ≤ r.length) : back n r = (r.drop n, 0) := by
  induction n generalizing r with
  | zero => simp [back]
  | succ n ih =>
    cases r with
    | nil => simp at hn
    | cons c r =>
      rw [back, if_pos (h c (by simp)).2, ih r (fun x hx => h x (by simp [hx])) (by simpa using hn)]
      rfl

theorem tailLoop_spec (hf : FoldOk env) (is : List Item) (hi : Items fl.noescape is) (hn : NoStar is) (s : List Nat) (hs : Str s) (hl : s.length = is.length)
    (fuel : Nat) (hfu : is.length + 1 ≤ fuel) : ∃ b, tailLoop env fl fuel (textOf is) s = some b ∧ (b = true ↔ M env fl is s) := by
  induction is generalizing s fuel with
  | nil =>
    obtain ⟨fuel, rfl⟩ : ∃ n, fuel = n + 1 := ⟨fuel - 1, by omega⟩
    cases s with
    | nil => exact ⟨true, by simp [tailLoop, textOf, patNext, strNext], by simp [M_nil]⟩
    | cons c s => simp at hl
  | cons i is ih =>
    obtain ⟨fuel, rfl⟩ : ∃ n, fuel = n + 1 := ⟨fuel - 1, by omega⟩
    simp only [List.length_cons] at hfu
    have hst := hn i (by simp)
    obtain ⟨t, h1, h2, h3, h4, -, h6⟩ := next_item hf hi hst
    cases s with
    | nil => simp at hl
    | cons c s =>
      have ha := hs c (by simp)
      have h0 := ha.1
      rw [tailLoop, h1]
      simp only [strNext_ascii ha, drop_text, h6 c ha.1 ha.2, List.drop_succ_cons, List.drop_zero]
      rw [if_neg (by omega)]
      cases hone : i.one env fl c with
      | false =>
        refine ⟨false, by simp, ?_⟩
        rw [M_one hst]
        simp [hone]
      | true =>
        have hM : M env fl (i :: is) (c :: s) ↔ M env fl is s := by
          rw [M_one hst]
          constructor
          · rintro ⟨c', s', he, -, hm⟩
            injection he with _ he
            rw [he]; exact hm
          · intro hm; exact ⟨c, s, rfl, hone, hm⟩
        rw [if_pos rfl, hM]
        exact ih (items_tail hi) (fun j hj => hn j (by simp [hj])) s (fun x hx => hs x (by simp [hx])) (by simpa using hl) fuel (by omega)

/-- The comparison of a component `comp`, in front of a star. -/
theorem compLoop_spec (hf : FoldOk env) (comp rest : List Item) (hn : NoStar comp) (hi : Items fl.noescape (comp ++ .star :: rest)) (s : List Nat) (hs : Str s)
    (fuel : Nat) (hfu : comp.length + 1 ≤ fuel) :
    (∃ pre s', s = pre ++ s' ∧ M env fl comp pre ∧ compLoop env fl fuel (textOf (comp ++ .star :: rest)) s = .star (textOf rest) s') ∨
    (compLoop env fl fuel (textOf (comp ++ .star :: rest)) s = .short ∧ s.length < comp.length) ∨
    (compLoop env fl fuel (textOf (comp ++ .star :: rest)) s = .differs ∧ s ≠ [] ∧ ¬ ∃ pre s', s = pre ++ s' ∧ M env fl comp pre) := by
  induction comp generalizing s fuel with
  | nil =>
    obtain ⟨fuel, rfl⟩ : ∃ n, fuel = n + 1 := ⟨fuel - 1, by omega⟩
    left
    exact ⟨[], s, rfl, rfl, by simp [compLoop, textOf, Item.text, patNext]⟩
  | cons i comp ih =>
    obtain ⟨fuel, rfl⟩ : ∃ n, fuel = n + 1 := ⟨fuel - 1, by omega⟩
    simp only [List.length_cons] at hfu
    have hst := hn i (by simp)
    rw [List.cons_append] at hi
    obtain ⟨t, h1, h2, h3, h4, -, h6⟩ := next_item hf hi hst
    have hstep : compLoop env fl (fuel + 1) (textOf (i :: (comp ++ .star :: rest))) s =
        (if (strNext env s).1 = 0 then .short
        else if fits env fl t (textOf (i :: (comp ++ .star :: rest))) (strNext env s).1 then
          compLoop env fl fuel ((textOf (i :: (comp ++ .star :: rest))).drop i.text.length) (s.drop (strNext env s).2)
        else .differs) := by
      rw [compLoop, h1]
      cases t <;> first | rfl | exact absurd rfl h4
    rw [List.cons_append, hstep, drop_text]
    cases s with
    | nil => right; left; exact ⟨by simp [strNext], by simp⟩
    | cons c s =>
      have ha := hs c (by simp)
      have h0 := ha.1
      rw [strNext_ascii ha, if_neg (by simp only; omega), h6 c ha.1 ha.2]
      simp only [List.drop_succ_cons, List.drop_zero]
      cases hone : i.one env fl c with
      | false =>
        right; right
        refine ⟨by simp, by simp, ?_⟩
        rintro ⟨pre, s', he, hm⟩
        obtain ⟨c', pre', rfl, h7, -⟩ := (M_one hst comp pre).1 hm
        injection he with he _
        rw [← he, hone] at h7
        exact Bool.noConfusion h7
      | true =>
        rw [if_pos rfl]
        rcases ih (fun j hj => hn j (by simp [hj])) (items_tail hi) s (fun x hx => hs x (by simp [hx])) fuel (by omega) with
          ⟨pre, s', h7, h8, h9⟩ | ⟨h7, h8⟩ | ⟨h7, h8, h9⟩
        · left
          exact ⟨c :: pre, s', by rw [h7]; rfl, (M_one hst comp _).2 ⟨c, pre, rfl, hone, h8⟩, h9⟩
        · right; left; exact ⟨h7, by simp; omega⟩
        · right; right
          refine ⟨h7, by simp, ?_⟩
          rintro ⟨pre, s', he, hm⟩
          obtain ⟨c', pre', rfl, -, hm'⟩ := (M_one hst comp pre).1 hm
          injection he with _ he
          exact h9 ⟨pre', s', he, hm'⟩

theorem first_star {is : List Item} (h : EndsStar is) (hne : is ≠ []) : ∃ comp rest, is = comp ++ .star :: rest ∧ NoStar comp ∧ EndsStar rest := by
  induction is with
  | nil => exact absurd rfl hne
  | cons i is ih =>
    rcases h with h | ⟨a, h⟩
    · exact absurd h (by simp)
    · cases hst : isStar i with
      | true =>
        have : i = .star := by cases i <;> simp [isStar] at hst ⊢
        subst this
        refine ⟨[], is, rfl, fun _ h => by simp at h, ?_⟩
        cases a with
        | nil => left; simpa using h
        | cons x a => right; exact ⟨a, by injection h⟩
      | false =>
        cases a with
        | nil =>
          simp only [List.nil_append, List.cons.injEq] at h
          rw [h.1] at hst
          exact absurd hst (by simp [isStar])
        | cons x a =>
          injection h with _ h
          obtain ⟨comp, rest, h1, h2, h3⟩ := ih (Or.inr ⟨a, h⟩) (by rw [h]; simp)
          refine ⟨i :: comp, rest, by rw [h1]; rfl, ?_, h3⟩
          intro j hj
          rcases List.mem_cons.1 hj with rfl | hj
          · exact hst
          · exact h2 j hj

theorem items_append {ne : Bool} {a b : List Item} (h : Items ne (a ++ b)) : Items ne b := by
  induction a with
  | nil => exact h
  | cons i a ih => exact ih (items_tail h)

theorem items_prefix {ne : Bool} {a b : List Item} (h : Items ne (a ++ b)) : Items ne a := by
  induction a with
  | nil => exact trivial
  | cons i a ih =>
    rw [List.cons_append] at h
    have ih := ih (items_tail h)
    cases i with
    | lit e c =>
      cases e with
      | true => exact ⟨h.1, h.2.1, ih⟩
      | false =>
        obtain ⟨h1, h2, h3, h4, h5, -⟩ := h
        refine ⟨h1, h2, h3, fun hc => (h4 hc).imp id (fun h => (List.append_eq_nil_iff.1 h).1), fun hc hm => h5 hc ?_, ih⟩
        simp only [textOf, List.flatMap_append, List.mem_append]
        exact Or.inl hm
    | any => exact ih
    | star => exact ih
    | set neg es => exact ⟨h.1, h.2.1, ih⟩

theorem isStar_star : isStar .star = true := rfl

/-- Each component is found at the first place where it is. -/
theorem sea_spec (hf : FoldOk env) (fuel : Nat) (is : List Item) (hi : Items fl.noescape is) (he : EndsStar is) (s : List Nat) (hs : Str s)
    (hfu : is.length + s.length + 1 ≤ fuel) : ∃ b, sea env fl fuel (textOf is) s = some b ∧ (b = true ↔ M env fl (.star :: is) s) := by
  induction fuel generalizing is s with
  | zero => omega
  | succ fuel ih =>
    by_cases hne : is = []
    · subst hne
      refine ⟨true, by simp [sea, textOf], ?_⟩
      simp only [true_iff]
      exact (M_star isStar_star _ _).2 ⟨s, [], by simp, rfl⟩
    · obtain ⟨comp, rest, h1, h2, h3⟩ := first_star he hne
      have htx : textOf is ≠ [] := by
        cases is with
        | nil => exact absurd rfl hne
        | cons i is =>
          rw [textOf_cons]
          intro h
          exact text_ne_nil hi (List.append_eq_nil_iff.1 h).1
      have hlen : comp.length + 1 ≤ (textOf is).length + 1 := by
        have := textOf_length hi
        rw [h1] at this ⊢
        simp only [List.length_append, List.length_cons] at this
        omega
      have hri : Items fl.noescape rest := by
        rw [h1] at hi
        exact items_tail (items_append hi)
      rw [sea, if_neg htx]
      have hc := compLoop_spec hf comp rest h2 (h1 ▸ hi) s hs _ hlen
      rw [← h1] at hc
      have hMs : ∀ s, M env fl (.star :: is) s ↔ ∃ u v w, s = u ++ (v ++ w) ∧ M env fl comp v ∧ M env fl (.star :: rest) w := by
        intro s
        rw [M_star isStar_star, h1]
        constructor
        · rintro ⟨u, v, rfl, h⟩
          obtain ⟨x, y, rfl, h4, h5⟩ := (M_append _ _ _).1 h
          exact ⟨u, x, y, rfl, h4, h5⟩
        · rintro ⟨u, v, w, rfl, h4, h5⟩
          exact ⟨u, v ++ w, rfl, (M_append _ _ _).2 ⟨v, w, rfl, h4, h5⟩⟩
      rcases hc with ⟨pre, s', h4, h5, h6⟩ | ⟨h4, h5⟩ | ⟨h4, h5, h6⟩
      · rw [h6]
        obtain ⟨b, h7, h8⟩ := ih rest hri h3 s' (fun x hx => hs x (by rw [h4]; simp [hx])) (by
          have : is.length = comp.length + 1 + rest.length := by rw [h1]; simp; omega
          have : s.length = pre.length + s'.length := by rw [h4]; simp
          omega)
        refine ⟨b, h7, h8.trans ?_⟩
        rw [hMs]
        constructor
        · intro h
          exact ⟨[], pre, s', by rw [h4]; rfl, h5, h⟩
        · rintro ⟨u, v, w, he', h9, h10⟩
          have hl1 := M_length h2 h5
          have hl2 := M_length h2 h9
          obtain ⟨x, y, rfl, h11⟩ := (M_star isStar_star _ _).1 h10
          rw [h4] at he'
          have h12 : s' = (u ++ (v ++ x)).drop pre.length ++ y := by
            have := congrArg (List.drop pre.length) he'
            rw [List.drop_left, show u ++ (v ++ (x ++ y)) = (u ++ (v ++ x)) ++ y by simp, List.drop_append_of_le_length (by simp; omega)] at this
            exact this
          exact (M_star isStar_star _ _).2 ⟨_, y, h12, h11⟩
      · rw [h4]
        refine ⟨false, rfl, ?_⟩
        rw [hMs]
        simp only [Bool.false_eq_true, false_iff]
        rintro ⟨u, v, w, he', h9, -⟩
        have hl2 := M_length h2 h9
        rw [he'] at h5
        simp at h5
        omega
      · rw [h4]
        cases s with
        | nil => exact absurd rfl h5
        | cons c s =>
          have ha := hs c (by simp)
          have h0 := ha.1
          have hadv : advance env (c :: s) = s := by
            unfold advance
            rw [strNext_ascii ha]
            dsimp only
            rw [if_pos (by omega)]
            rfl
          simp only [hadv]
          obtain ⟨b, h7, h8⟩ := ih is hi he s (fun x hx => hs x (by simp [hx])) (by simp only [List.length_cons] at hfu; omega)
          refine ⟨b, h7, h8.trans ?_⟩
          rw [hMs, hMs]
          constructor
          · rintro ⟨u, v, w, he', h9, h10⟩
            exact ⟨c :: u, v, w, by rw [he']; rfl, h9, h10⟩
          · rintro ⟨u, v, w, he', h9, h10⟩
            cases u with
            | nil => exact absurd ⟨v, w, he', h9⟩ h6
            | cons d u =>
              injection he' with _ he'
              exact ⟨u, v, w, he', h9, h10⟩

/-- fnmatch_internal. -/
theorem internal_spec (hf : FoldOk env) (is : List Item) (hi : Items fl.noescape is) (s : List Nat) (hs : Str s) :
    ∃ b, internal env fl (textOf is) s = some b ∧
      (b = true ↔ ¬ (fl.period = true ∧ s.head? = some 46 ∧ (textOf is).head? ≠ some 46) ∧ M env fl is s) := by
  unfold internal
  by_cases hp : fl.period = true ∧ s.head? = some 46 ∧ (textOf is).head? ≠ some 46
  · rw [if_pos hp]
    exact ⟨false, rfl, by simp [hp]⟩
  · rw [if_neg hp]
    have hred : ∀ b, (b = true ↔ M env fl is s) → (b = true ↔ ¬ (fl.period = true ∧ s.head? = some 46 ∧ (textOf is).head? ≠ some 46) ∧ M env fl is s) :=
      fun b h => h.trans ⟨fun h => ⟨hp, h⟩, fun h => h.2⟩
    have htl := textOf_length hi
    rcases head_spec hf is hi s hs ((textOf is).length + 1) (by omega) with ⟨b, h1, h2⟩ | ⟨r, s', h1, hr, hs', h2⟩
    · rw [h1]
      exact ⟨b, rfl, hred b h2⟩
    · rw [h1]
      dsimp only
      have hrl := textOf_length hr
      rw [tailScan_spec hf r hr _ 0 _ (by omega)]
      dsimp only
      have hsp := split_append r
      have hpt : (if (split r).1 = [] then (textOf r, 0 + (split r).2.length) else (textOf (split r).2, (split r).2.length)) =
          (textOf (split r).2, (split r).2.length) := by
        split
        · rename_i h
          rw [h, List.nil_append] at hsp
          rw [hsp, Nat.zero_add]
        · rfl
      rw [hpt]
      dsimp only
      have hM : M env fl is s ↔ ∃ u v, s' = u ++ v ∧ M env fl (.star :: (split r).1) u ∧ M env fl (split r).2 v := by
        rw [h2]
        conv => lhs; rw [← hsp, ← List.cons_append]
        exact M_append _ _ _
      by_cases hlt : s'.length < (split r).2.length
      · rw [if_pos hlt]
        refine ⟨false, rfl, hred _ ?_⟩
        rw [hM]
        simp only [Bool.false_eq_true, false_iff]
        rintro ⟨u, v, he, -, hv⟩
        have := M_length (split_noStar r) hv
        rw [he] at hlt
        simp at hlt
        omega
      · rw [if_neg hlt, back_spec _ _ (fun x hx => hs' x (List.mem_reverse.1 hx)) (by simp; omega)]
        dsimp only
        rw [if_neg (by simp)]
        have e1 : s'.drop ((s'.reverse).drop (split r).2.length).length = s'.drop (s'.length - (split r).2.length) := by simp
        have e2 : ((s'.reverse).drop (split r).2.length).reverse = s'.take (s'.length - (split r).2.length) := by
          rw [List.drop_reverse, List.reverse_reverse]
        have e3 : (textOf r).take ((textOf r).length - (textOf (split r).2).length) = textOf (split r).1 := by
          have : textOf r = textOf (split r).1 ++ textOf (split r).2 := by
            conv => lhs; rw [← hsp]
            simp [textOf]
          rw [this]
          simp
        rw [e1, e2, e3]
        have hi0 : Items fl.noescape ((split r).1 ++ (split r).2) := by rw [hsp]; exact hr
        have hi2 := items_append hi0
        obtain ⟨b1, h3, h4⟩ := tailLoop_spec hf (split r).2 hi2 (split_noStar r) (s'.drop (s'.length - (split r).2.length))
          (fun x hx => hs' x (List.mem_of_mem_drop hx)) (by simp; omega) ((textOf r).length + 1) (by
            have : r.length = (split r).1.length + (split r).2.length := by conv => lhs; rw [← hsp, List.length_append]
            omega)
        rw [h3]
        have hMd : M env fl is s ↔ M env fl (.star :: (split r).1) (s'.take (s'.length - (split r).2.length)) ∧
            M env fl (split r).2 (s'.drop (s'.length - (split r).2.length)) := by
          rw [hM]
          constructor
          · rintro ⟨u, v, he, h5, h6⟩
            have hl := M_length (split_noStar r) h6
            have : s'.length - (split r).2.length = u.length := by rw [he, List.length_append]; omega
            rw [this, he, List.take_left, List.drop_left]
            exact ⟨h5, h6⟩
          · rintro ⟨h5, h6⟩
            exact ⟨_, _, (List.take_append_drop _ _).symm, h5, h6⟩
        cases b1 with
        | false =>
          refine ⟨false, rfl, hred _ ?_⟩
          rw [hMd, ← h4]
          simp
        | true =>
          obtain ⟨b, h5, h6⟩ := sea_spec hf ((textOf r).length + s'.length + 1) (split r).1 (items_prefix hi0) (split_endsStar r)
            (s'.take (s'.length - (split r).2.length)) (fun x hx => hs' x (List.mem_of_mem_take hx)) (by
              have : r.length = (split r).1.length + (split r).2.length := by conv => lhs; rw [← hsp, List.length_append]
              simp only [List.length_take]
              omega)
          refine ⟨b, h5, hred _ ?_⟩
          rw [hMd, h6]
          exact ⟨fun h => ⟨h, h4.1 rfl⟩, fun h => h.1⟩

/-! ## fnmatch -/

def isSlash : Item → Bool
  | .lit _ c => c == 47
  | _ => false

theorem isSlash_iff {i : Item} : isSlash i = true ↔ ∃ e, i = .lit e 47 := by
  cases i <;> simp [isSlash]

def Lead (fl : Flags) (lead : Bool) (h : List Item) (p : List Nat) : Prop :=
  lead = true → fl.period = true → p.head? = some 46 → ∃ e, h.head? = some (.lit e 46)

theorem one_star (c : Nat) : Item.one env fl .star c = false := rfl

theorem lead_false (h : List Item) (p : List Nat) : Lead fl false h p := fun h => Bool.noConfusion h

/-- The match of a component, in front of something that does not match a period. -/
theorem matches_append (h t : List Item) (hns : fl.pathname = true → ∀ i ∈ h, isSlash i = false)
    (ht : ∀ lead s, Matches env fl lead t s ↔ Matches env fl false t s) (ht2 : ∀ lead s, Matches env fl lead t s → s.head? ≠ some 46) (lead : Bool)
    (s : List Nat) : Matches env fl lead (h ++ t) s ↔
      ∃ p s', s = p ++ s' ∧ (fl.pathname = true → 47 ∉ p) ∧ M env fl h p ∧ Lead fl lead h p ∧ Matches env fl false t s' := by
  induction h generalizing lead s with
  | nil =>
    rw [List.nil_append, ht]
    constructor
    · intro h; exact ⟨[], s, rfl, by simp, rfl, by simp [Lead], h⟩
    · rintro ⟨p, s', rfl, -, h2, -, h3⟩
      rw [M_nil.1 h2]; exact h3
  | cons i h ih =>
    have ih := ih (fun hp j hj => hns hp j (by simp [hj]))
    rw [List.cons_append]
    constructor
    · intro hm
      cases hm with
      | @one _ _ c _ s h1 h2 h3 h4 =>
        have hst : isStar i = false := by
          cases i with
          | star => rw [one_star] at h1; exact Bool.noConfusion h1
          | _ => rfl
        have hl : (fl.pathname && c == 47) = false := by
          cases hp : fl.pathname with
          | false => rfl
          | true =>
            have : c ≠ 47 := by
              intro hc
              have := isSlash_iff.2 (h2 hp hc)
              rw [hns hp i (by simp)] at this
              exact Bool.noConfusion this
            simpa using this
        rw [hl, ih] at h4
        obtain ⟨p, s', rfl, h5, h6, -, h7⟩ := h4
        refine ⟨c :: p, s', rfl, ?_, (M_one hst _ _).2 ⟨c, p, rfl, h1, h6⟩, ?_, h7⟩
        · intro hp hm
          rcases List.mem_cons.1 hm with hm | hm
          · rw [hp, ← hm] at hl
            simp at hl
          · exact h5 hp hm
        · intro hl hper hc
          simp only [List.head?_cons, Option.some.injEq] at hc
          obtain ⟨e, he⟩ := h3 hl hper hc
          exact ⟨e, by rw [he]; rfl⟩
      | @star _ pre _ s h1 h2 h3 =>
        rw [ih] at h3
        obtain ⟨p, s', rfl, h5, h6, -, h7⟩ := h3
        refine ⟨pre ++ p, s', by simp, ?_, (M_star isStar_star _ _).2 ⟨pre, p, rfl, h6⟩, ?_, h7⟩
        · intro hp hm
          rcases List.mem_append.1 hm with hm | hm
          · exact h1 hp hm
          · exact h5 hp hm
        · intro hl hper hc
          exfalso
          apply h2 hl hper
          rw [← List.append_assoc]
          cases hx : pre ++ p with
          | nil => rw [hx] at hc; simp at hc
          | cons x y => rw [hx] at hc; simpa using hc
    · rintro ⟨p, s', rfl, h1, h2, h3, h4⟩
      cases hst : isStar i with
      | true =>
        have : i = .star := by cases i <;> simp [isStar] at hst ⊢
        subst this
        obtain ⟨u, v, rfl, h5⟩ := (M_star hst _ _).1 h2
        rw [List.append_assoc]
        refine Matches.star (fun hp hm => h1 hp (by simp [hm])) ?_ ((ih _ _).2 ⟨v, s', rfl, fun hp hm => h1 hp (by simp [hm]), h5, lead_false _ _, h4⟩)
        intro hl hper hc
        cases hx : u ++ v with
        | nil =>
          have : u = [] ∧ v = [] := List.append_eq_nil_iff.1 hx
          rw [this.1, this.2] at hc
          exact ht2 false s' h4 hc
        | cons x y =>
          have : (u ++ v).head? = some 46 := by
            rw [← List.append_assoc, hx] at hc
            rw [hx]; simpa using hc
          obtain ⟨e, he⟩ := h3 hl hper this
          simp at he
      | false =>
        obtain ⟨c, p', rfl, h5, h6⟩ := (M_one hst _ _).1 h2
        have hc : fl.pathname = true → c ≠ 47 := fun hp hc => h1 hp (by simp [hc])
        have hl : (fl.pathname && c == 47) = false := by
          cases hp : fl.pathname with
          | false => rfl
          | true => simpa using hc hp
        refine Matches.one h5 (fun hp h => absurd h (hc hp)) ?_ ?_
        · intro hl hper hc
          obtain ⟨e, he⟩ := h3 hl hper (by simp [hc])
          exact ⟨e, by simpa using he⟩
        · rw [hl, ih]
          exact ⟨p', s', rfl, fun hp hm => h1 hp (by simp [hm]), h6, lead_false _ _, h4⟩

theorem matches_nil {lead : Bool} {s : List Nat} : Matches env fl lead [] s ↔ s = [] := by
  constructor
  · intro h; cases h; rfl
  · rintro rfl; exact .nil _

/-- The whole pattern is one component. -/
theorem matches_comp (h : List Item) (hns : fl.pathname = true → ∀ i ∈ h, isSlash i = false) (lead : Bool) (s : List Nat) :
    Matches env fl lead h s ↔ (fl.pathname = true → 47 ∉ s) ∧ M env fl h s ∧ Lead fl lead h s := by
  have := matches_append (env := env) (fl := fl) h [] hns (fun _ _ => by rw [matches_nil, matches_nil]) (fun _ s h => by rw [matches_nil.1 h]; simp) lead s
  rw [List.append_nil] at this
  rw [this]
  constructor
  · rintro ⟨p, s', rfl, h1, h2, h3, h4⟩
    rw [matches_nil.1 h4, List.append_nil]
    exact ⟨h1, h2, h3⟩
  · rintro ⟨h1, h2, h3⟩
    exact ⟨s, [], by simp, h1, h2, h3, .nil _⟩

theorem slash_one (hf : FoldOk env) {c : Nat} (hc : Ascii c) (e : Bool) : (Item.lit e 47).one env fl c = true ↔ c = 47 := by
  have h := (hf c (by have := hc.1; omega) (by have := hc.2; omega)).2.2.2.2
  constructor
  · intro h1
    simp only [Item.one, Bool.or_eq_true, Bool.and_eq_true, decide_eq_true_eq] at h1
    rcases h1 with h1 | ⟨-, h1⟩
    · omega
    · have := h h1; omega
  · rintro rfl; simp [Item.one]

theorem matches_slash (hf : FoldOk env) {lead : Bool} {e : Bool} {r : List Item} {s : List Nat} (hs : Str s) (hp : fl.pathname = true) :
    Matches env fl lead (.lit e 47 :: r) s ↔ ∃ q, s = 47 :: q ∧ Matches env fl true r q := by
  constructor
  · intro h
    cases h with
    | @one _ _ c _ q h1 h2 h3 h4 =>
      have : c = 47 := (slash_one hf (hs c (by simp)) e).1 h1
      subst this
      rw [hp] at h4
      exact ⟨q, rfl, h4⟩
  · rintro ⟨q, rfl, h⟩
    refine Matches.one (by simp [Item.one]) (fun _ _ => ⟨e, rfl⟩) (fun _ _ h => by omega) ?_
    rw [hp]; exact h

/-- A component in front of a slash. -/
theorem matches_path (hf : FoldOk env) (hp : fl.pathname = true) (h r : List Item) (e : Bool) (hns : ∀ i ∈ h, isSlash i = false) (s : List Nat) (hs : Str s) :
    Matches env fl true (h ++ .lit e 47 :: r) s ↔ ∃ p q, s = p ++ 47 :: q ∧ 47 ∉ p ∧ M env fl h p ∧ Lead fl true h p ∧ Matches env fl true r q := by
  have h46 : (Item.lit e 47).one env fl (46 : Nat) = false := by
    cases hx : (Item.lit e 47).one env fl (46 : Nat) with
    | false => rfl
    | true => exact absurd ((slash_one hf ⟨by omega, by omega⟩ e).1 hx) (by omega)
  have h1 : ∀ lead lead' s, Matches env fl lead (.lit e 47 :: r) s → Matches env fl lead' (.lit e 47 :: r) s := by
    intro lead lead' s hm
    cases hm with
    | @one _ _ c _ q a1 a2 a3 a4 =>
      refine Matches.one a1 a2 (fun _ _ hc => ?_) a4
      rw [hc, h46] at a1
      exact Bool.noConfusion a1
  have h2 : ∀ lead s, Matches env fl lead (.lit e 47 :: r) s → s.head? ≠ some 46 := by
    intro lead s hm
    cases hm with
    | @one _ _ c _ q a1 a2 a3 a4 =>
      intro hc
      simp only [List.head?_cons, Option.some.injEq] at hc
      rw [hc, h46] at a1
      exact Bool.noConfusion a1
  rw [matches_append h (.lit e 47 :: r) (fun _ => hns) (fun l s => ⟨h1 _ _ s, h1 _ _ s⟩) h2]
  constructor
  · rintro ⟨p, s', rfl, a1, a2, a3, a4⟩
    obtain ⟨q, rfl, a5⟩ := (matches_slash hf (fun x hx => hs x (by simp [hx])) hp).1 a4
    exact ⟨p, q, rfl, a1 hp, a2, a3, a5⟩
  · rintro ⟨p, q, rfl, a1, a2, a3, a4⟩
    exact ⟨p, 47 :: q, rfl, fun _ => a1, a2, a3, (matches_slash hf (fun x hx => hs x (List.mem_append_right _ hx)) hp).2 ⟨q, rfl, a4⟩⟩

/-- No period is escaped. -/
def DotOk (fl : Flags) (is : List Item) : Prop := fl.period = true → Item.lit true 46 ∉ is

theorem text_head {ne : Bool} {i : Item} {is : List Item} (hi : Items ne (i :: is)) (hd : i ≠ .lit true 46) :
    (textOf (i :: is)).head? = some 46 ↔ ∃ e, i = .lit e 46 := by
  rw [textOf_cons]
  cases i with
  | lit e c =>
    cases e with
    | true =>
      simp only [Item.text, List.cons_append, List.head?_cons, Option.some.injEq, Nat.reduceEqDiff, Item.lit.injEq, exists_eq_left', false_iff]
      intro hc; exact hd (by rw [hc])
    | false => simp [Item.text]
  | any => simp [Item.text]
  | star => simp [Item.text]
  | set neg es => cases neg with
    | none => simp [Item.text]
    | some b => cases b <;> simp [Item.text]

/-- fnmatch_internal, for a component. -/
theorem internal_comp (hf : FoldOk env) (is : List Item) (hi : Items fl.noescape is) (hd : DotOk fl is) (s : List Nat) (hs : Str s) :
    ∃ b, internal env fl (textOf is) s = some b ∧ (b = true ↔ M env fl is s ∧ Lead fl true is s) := by
  obtain ⟨b, h1, h2⟩ := internal_spec hf is hi s hs
  refine ⟨b, h1, h2.trans ?_⟩
  rw [and_comm]
  apply and_congr_right
  intro _
  unfold Lead
  by_cases hp : fl.period = true
  · have : (textOf is).head? = some 46 ↔ ∃ e, is.head? = some (.lit e 46) := by
      cases is with
      | nil => simp [textOf]
      | cons i is =>
        rw [text_head hi (fun h => hd hp (by rw [h]; simp))]
        simp
    rw [ne_eq, this]
    simp only [hp, true_and, true_imp_iff, not_and, Classical.not_not]
  · simp [hp]

/-- The first slash of the pattern. -/
theorem patSlash_spec (hf : FoldOk env) (is : List Item) (hi : Items fl.noescape is) (n fuel : Nat) (hfu : is.length + 1 ≤ fuel) :
    (∃ h e r, is = h ++ .lit e 47 :: r ∧ (∀ i ∈ h, isSlash i = false) ∧
      patSlash env fl fuel (textOf is) n = some (n + (textOf h).length, .chr 47, (Item.lit e 47).text.length)) ∨
    ((∀ i ∈ is, isSlash i = false) ∧ patSlash env fl fuel (textOf is) n = some (n + (textOf is).length, .fin, 0)) := by
  induction is generalizing n fuel with
  | nil =>
    obtain ⟨fuel, rfl⟩ : ∃ n, fuel = n + 1 := ⟨fuel - 1, by omega⟩
    right
    exact ⟨by simp, by simp [patSlash, textOf, patNext]⟩
  | cons i is ih =>
    obtain ⟨fuel, rfl⟩ : ∃ n, fuel = n + 1 := ⟨fuel - 1, by omega⟩
    simp only [List.length_cons] at hfu
    have hstep : isSlash i = false → patSlash env fl (fuel + 1) (textOf (i :: is)) n = patSlash env fl fuel (textOf is) (n + i.text.length) := by
      intro hsl
      cases hst : isStar i with
      | true =>
        have : i = .star := by cases i <;> simp [isStar] at hst ⊢
        subst this
        simp [patSlash, textOf, Item.text, patNext]
      | false =>
        obtain ⟨t, h1, h2, h3, h4, h5, -⟩ := next_item hf hi hst
        rw [patSlash]
        simp only [h1]
        rw [if_neg, drop_text]
        rintro (h | h)
        · exact h2 h
        · have := isSlash_iff.2 (h5.1 h)
          rw [hsl] at this
          exact Bool.noConfusion this
    cases hsl : isSlash i with
    | true =>
      left
      obtain ⟨e, rfl⟩ := isSlash_iff.1 hsl
      obtain ⟨t, h1, h2, h3, h4, h5, -⟩ := next_item hf hi rfl
      refine ⟨[], e, is, rfl, by simp, ?_⟩
      have : t = .chr 47 := h5.2 ⟨e, rfl⟩
      rw [patSlash]
      simp only [h1, this]
      simp [textOf]
    | false =>
      rw [hstep hsl]
      rcases ih (items_tail hi) (n + i.text.length) fuel (by omega) with ⟨h, e, r, h1, h2, h3⟩ | ⟨h1, h2⟩
      · left
        refine ⟨i :: h, e, r, by rw [h1]; rfl, ?_, ?_⟩
        · intro j hj
          rcases List.mem_cons.1 hj with rfl | hj
          · exact hsl
          · exact h2 j hj
        · rw [h3, textOf_cons, List.length_append, Nat.add_assoc]
      · right
        refine ⟨?_, ?_⟩
        · intro j hj
          rcases List.mem_cons.1 hj with rfl | hj
          · exact hsl
          · exact h1 j hj
        · rw [h2, textOf_cons, List.length_append, Nat.add_assoc]

theorem slash_unique {p p' q q' : List Nat} (h : p ++ 47 :: q = p' ++ 47 :: q') (hp : 47 ∉ p) (hp' : 47 ∉ p') : p = p' ∧ q = q' := by
  induction p generalizing p' with
  | nil =>
    cases p' with
    | nil => simpa using h
    | cons x p' =>
      simp only [List.nil_append, List.cons_append, List.cons.injEq] at h
      exact absurd (by simp [h.1]) hp'
  | cons x p ih =>
    cases p' with
    | nil =>
      simp only [List.nil_append, List.cons_append, List.cons.injEq] at h
      exact absurd (by simp [h.1]) hp
    | cons y p' =>
      simp only [List.cons_append, List.cons.injEq] at h
      obtain ⟨h1, h2⟩ := ih h.2 (fun hm => hp (by simp [hm])) (fun hm => hp' (by simp [hm]))
      exact ⟨by rw [h.1, h1], h2⟩

theorem first_slash (s : List Nat) : (47 ∉ s ∧ s.takeWhile (· ≠ 47) = s) ∨ ∃ p q, s = p ++ 47 :: q ∧ 47 ∉ p ∧ s.takeWhile (· ≠ 47) = p := by
  induction s with
  | nil => left; simp
  | cons c s ih =>
    by_cases hc : c = 47
    · right; exact ⟨[], s, by rw [hc]; rfl, by simp, by simp [hc]⟩
    · rcases ih with ⟨h1, h2⟩ | ⟨p, q, h1, h2, h3⟩
      · left
        refine ⟨?_, ?_⟩
        · simp only [List.mem_cons, not_or]
          exact ⟨fun h => hc h.symm, h1⟩
        · rw [List.takeWhile_cons_of_pos (by simpa using hc), h2]
      · right
        refine ⟨c :: p, q, by rw [h1]; rfl, ?_, ?_⟩
        · simp only [List.mem_cons, not_or]
          exact ⟨fun h => hc h.symm, h2⟩
        · rw [List.takeWhile_cons_of_pos (by simpa using hc), h3]

theorem path_spec (hf : FoldOk env) (hp : fl.pathname = true) (fuel : Nat) (is : List Item) (hi : Items fl.noescape is) (hd : DotOk fl is) (s : List Nat)
    (hs : Str s) (hfu : s.length + 1 ≤ fuel) : ∃ b, pathLoop env fl fuel (textOf is) s = some b ∧ (b = true ↔ Accepts env fl is s) := by
  induction fuel generalizing is s with
  | zero => omega
  | succ fuel ih =>
    have htl := textOf_length hi
    have hslash := patSlash_spec hf is hi 0 ((textOf is).length + 1) (by omega)
    rw [pathLoop]
    rcases first_slash s with ⟨g1, g2⟩ | ⟨p, q, g1, g2, g3⟩
    · -- the string ends
      have hacc : Accepts env fl is s ↔ Matches env fl true is s := by
        unfold Accepts
        constructor
        · rintro (h | ⟨-, pre, post, h, -⟩)
          · exact h
          · exact absurd (by rw [h]; simp) g1
        · exact Or.inl
      rw [hacc]
      rcases hslash with ⟨h, e, r, h1, h2, h3⟩ | ⟨h1, h2⟩
      · simp only [h3, g2]
        rw [if_pos (by simp)]
        refine ⟨false, rfl, ?_⟩
        simp only [Bool.false_eq_true, false_iff]
        rw [h1, matches_path hf hp h r e h2 s hs]
        rintro ⟨p, q, h, -⟩
        exact absurd (by rw [h]; simp) g1
      · simp only [h2, g2]
        rw [if_neg (by simp), Nat.zero_add, List.take_length, List.take_length]
        obtain ⟨b, h3, h4⟩ := internal_comp hf is hi hd s hs
        rw [h3]
        refine ⟨b, by cases b <;> rfl, h4.trans ?_⟩
        rw [matches_comp is (fun _ => h1)]
        exact ⟨fun h => ⟨fun _ => g1, h⟩, fun h => h.2⟩
    · have hsp : Str p := fun x hx => hs x (by rw [g1]; simp [hx])
      have hsq : Str q := fun x hx => hs x (by rw [g1]; simp [hx])
      have htake : s.take p.length = p := by rw [g1, List.take_left]
      have hdrop : s.drop (p.length + 1) = q := by
        rw [g1, show p ++ 47 :: q = (p ++ [47]) ++ q by simp, show p.length + 1 = (p ++ [47]).length by simp, List.drop_left]
      have hend : decide (s.length = p.length) = false := by
        rw [g1]; simp
      rcases hslash with ⟨h, e, r, h1, h2, h3⟩ | ⟨h1, h2⟩
      · have hih : Items fl.noescape h := items_prefix (b := .lit e 47 :: r) (by rw [← h1]; exact hi)
        have hir : Items fl.noescape r := items_tail (items_append (a := h) (b := .lit e 47 :: r) (by rw [← h1]; exact hi))
        have hdh : DotOk fl h := fun hp hm => hd hp (by rw [h1]; simp [hm])
        have hdr : DotOk fl r := fun hp hm => hd hp (by rw [h1]; simp [hm])
        have ht1 : textOf is = textOf h ++ ((Item.lit e 47).text ++ textOf r) := by rw [h1]; simp [textOf]
        have htk : (textOf is).take (0 + (textOf h).length) = textOf h := by rw [ht1, Nat.zero_add, List.take_left]
        have hdk : (textOf is).drop (0 + (textOf h).length + (Item.lit e 47).text.length) = textOf r := by
          rw [ht1, Nat.zero_add, ← List.append_assoc, ← List.length_append, List.drop_left]
        simp only [h3, g3, hend, htake, hdrop, htk, hdk]
        rw [if_neg (by simp)]
        obtain ⟨b, h4, h5⟩ := internal_comp hf h hih hdh p hsp
        rw [h4]
        have hmp : ∀ s, Str s → (Matches env fl true is s ↔ ∃ p q, s = p ++ 47 :: q ∧ 47 ∉ p ∧ M env fl h p ∧ Lead fl true h p ∧ Matches env fl true r q) :=
          fun s hs => by rw [h1]; exact matches_path hf hp h r e h2 s hs
        have hacc : Accepts env fl is s ↔ (M env fl h p ∧ Lead fl true h p) ∧ Accepts env fl r q := by
          unfold Accepts
          constructor
          · rintro (hm | ⟨hl, pre, post, he, hm⟩)
            · obtain ⟨p', q', he, a1, a2, a3, a4⟩ := (hmp s hs).1 hm
              obtain ⟨rfl, rfl⟩ := slash_unique (g1.symm.trans he) g2 a1
              exact ⟨⟨a2, a3⟩, Or.inl a4⟩
            · have hspre : Str pre := fun x hx => hs x (by rw [he]; simp [hx])
              obtain ⟨p', q', he', a1, a2, a3, a4⟩ := (hmp pre hspre).1 hm
              rw [he', List.append_assoc, List.cons_append] at he
              obtain ⟨rfl, rfl⟩ := slash_unique (g1.symm.trans he) g2 a1
              exact ⟨⟨a2, a3⟩, Or.inr ⟨hl, q', post, rfl, a4⟩⟩
          · rintro ⟨⟨a2, a3⟩, hm | ⟨hl, pre, post, he, hm⟩⟩
            · exact Or.inl ((hmp s hs).2 ⟨p, q, g1, g2, a2, a3, hm⟩)
            · refine Or.inr ⟨hl, p ++ 47 :: pre, post, by rw [g1, he]; simp, (hmp _ ?_).2 ⟨p, pre, rfl, g2, a2, a3, hm⟩⟩
              intro x hx
              refine hs x ?_
              rw [g1, he]
              rcases List.mem_append.1 hx with hx | hx
              · simp [hx]
              · rcases List.mem_cons.1 hx with hx | hx <;> simp [hx]
        cases b with
        | false =>
          refine ⟨false, rfl, ?_⟩
          rw [hacc, ← h5]
          simp
        | true =>
          obtain ⟨b, h6, h7⟩ := ih r hir hdr q hsq (by rw [g1] at hfu; simp at hfu; omega)
          refine ⟨b, ?_, ?_⟩
          · simpa using h6
          · rw [hacc, h7]
            exact ⟨fun h => ⟨h5.1 rfl, h⟩, fun h => h.2⟩
      · have htk : (textOf is).take (0 + (textOf is).length) = textOf is := by rw [Nat.zero_add, List.take_length]
        simp only [h2, g3, hend, htake, htk]
        have hno : ¬ Matches env fl true is s := by
          rw [matches_comp is (fun _ => h1)]
          rintro ⟨h, -⟩
          exact h hp (by rw [g1]; simp)
        cases hl : fl.leadingDir with
        | false =>
          rw [if_pos (by simp)]
          refine ⟨false, rfl, ?_⟩
          simp [Accepts, hno, hl]
        | true =>
          rw [if_neg (by simp)]
          obtain ⟨b, h4, h5⟩ := internal_comp hf is hi hd p hsp
          rw [h4]
          refine ⟨b, by cases b <;> simp, h5.trans ?_⟩
          constructor
          · intro h
            exact Or.inr ⟨hl, p, q, g1, (matches_comp is (fun _ => h1) _ _).2 ⟨fun _ => g2, h⟩⟩
          · rintro (h | ⟨-, pre, post, he, h⟩)
            · exact absurd h hno
            · obtain ⟨a1, a2⟩ := (matches_comp is (fun _ => h1) _ _).1 h
              obtain ⟨rfl, rfl⟩ := slash_unique (g1.symm.trans he) g2 (a1 hp)
              exact a2

theorem dir_spec (hf : FoldOk env) (hp : fl.pathname = false) (is : List Item) (hi : Items fl.noescape is) (hd : DotOk fl is) (s pre : List Nat) (hs : Str s)
    (hpre : Str pre) : ∃ b, dirLoop env fl (textOf is) pre s = some b ∧ (b = true ↔ ∃ x y, s = x ++ 47 :: y ∧ Matches env fl true is (pre ++ x)) := by
  induction s generalizing pre with
  | nil => exact ⟨false, rfl, by simp⟩
  | cons c s ih =>
    have hpc : Str (pre ++ [c]) := by
      intro x hx
      rcases List.mem_append.1 hx with hx | hx
      · exact hpre x hx
      · exact hs x (by simp at hx; simp [hx])
    obtain ⟨b, h1, h2⟩ := ih (pre ++ [c]) (fun x hx => hs x (by simp [hx])) hpc
    have hsplit : (∃ x y, c :: s = x ++ 47 :: y ∧ Matches env fl true is (pre ++ x)) ↔
        (c = 47 ∧ Matches env fl true is pre) ∨ ∃ x y, s = x ++ 47 :: y ∧ Matches env fl true is (pre ++ [c] ++ x) := by
      constructor
      · rintro ⟨x, y, he, hm⟩
        cases x with
        | nil =>
          simp only [List.nil_append, List.cons.injEq] at he
          exact Or.inl ⟨he.1, by simpa using hm⟩
        | cons d x =>
          simp only [List.cons_append, List.cons.injEq] at he
          exact Or.inr ⟨x, y, he.2, by rw [he.1]; simpa using hm⟩
      · rintro (⟨h3, h4⟩ | ⟨x, y, he, hm⟩)
        · exact ⟨[], s, by rw [h3]; rfl, by simpa using h4⟩
        · exact ⟨c :: x, y, by rw [he]; rfl, by simpa using hm⟩
    rw [hsplit, dirLoop]
    by_cases hc : c = 47
    · rw [if_neg (by simp [hc])]
      obtain ⟨b', h3, h4⟩ := internal_comp hf is hi hd pre hpre
      have h5 : b' = true ↔ Matches env fl true is pre := by
        rw [matches_comp is (fun h => by rw [hp] at h; exact Bool.noConfusion h), h4]
        exact ⟨fun h => ⟨fun h => by rw [hp] at h; exact Bool.noConfusion h, h⟩, fun h => h.2⟩
      rw [h3]
      cases b' with
      | true => exact ⟨true, rfl, by simp [hc, ← h5]⟩
      | false =>
        refine ⟨b, h1, h2.trans ?_⟩
        simp [← h5]
    · rw [if_pos hc]
      refine ⟨b, h1, h2.trans ?_⟩
      simp [hc]

end

/-! ## The property -/

/-- **C99 (partial).** A pattern of characters, '?', '*' and bracket expressions with characters, ranges and classes, and a string, all of the portable
character set: fnmatch returns 0 if and only if the pattern matches the string, for all flags. Partial: collating symbols and equivalence classes, a range that
ends with '-' in front of something else, an escaped leading period with FNM_PERIOD, and characters of more than one byte are not covered; see the
counterexamples below. -/
theorem fnmatch_partial (env : Env) (fl : Flags) (hf : FoldOk env) (is : List Item) (hi : Items fl.noescape is)
    (hd : fl.period = true → Item.lit true 46 ∉ is) (s : List Nat) (hs : ∀ c ∈ s, Ascii c) :
    ∃ b, fnmatch env fl (textOf is) s = some b ∧ (b = true ↔ Accepts env fl is s) := by
  unfold fnmatch
  cases hp : fl.pathname with
  | true =>
    rw [if_pos rfl]
    exact path_spec hf hp _ is hi hd s hs (by omega)
  | false =>
    rw [if_neg (by simp)]
    obtain ⟨b, h1, h2⟩ := internal_comp hf is hi hd s hs
    have h3 : b = true ↔ Matches env fl true is s := by
      rw [matches_comp is (fun h => by rw [hp] at h; exact Bool.noConfusion h), h2]
      exact ⟨fun h => ⟨fun h => by rw [hp] at h; exact Bool.noConfusion h, h⟩, fun h => h.2⟩
    cases hl : fl.leadingDir with
    | false =>
      rw [if_neg (by simp)]
      refine ⟨b, h1, h3.trans ?_⟩
      simp [Accepts, hl]
    | true =>
      rw [if_pos rfl]
      obtain ⟨b', h4, h5⟩ := dir_spec hf hp is hi hd s [] hs (by intro x hx; simp at hx)
      rw [h4]
      simp only [List.nil_append] at h5
      cases b' with
      | true => exact ⟨true, rfl, ⟨fun _ => Or.inr ⟨hl, h5.1 rfl⟩, fun _ => rfl⟩⟩
      | false =>
        refine ⟨b, h1, h3.trans ⟨Or.inl, ?_⟩⟩
        rintro (h | ⟨-, h⟩)
        · exact h
        · exact absurd (h5.2 h) (by simp)

/-- Characters of two bytes in UTF-8; digits; the other case of the letters A to Z. -/
def witness : Env where
  mb
    | a :: b :: _ => if 194 ≤ a ∧ a < 224 ∧ 128 ≤ b ∧ b < 192 then some ((a - 192) * 64 + (b - 128), 2) else none
    | _ => none
  cls _ k := decide (48 ≤ k ∧ k ≤ 57)
  fold k := if 97 ≤ k ∧ k ≤ 122 then k - 32 else if 65 ≤ k ∧ k ≤ 90 then k + 32 else k

theorem witness_fold : FoldOk witness := by
  intro k h0 h1
  simp only [witness]
  refine ⟨?_, ?_, ?_, ?_, ?_⟩ <;> repeat (first | split | omega)

/-- `a*[!b-dx]/?\*[[:digit:]]` -/
def sample : List Item :=
  [.lit false 97, .star, .set (some false) [.range 98 100, .chr 120], .lit false 47, .any, .lit true 42, .set none [.cls [100, 105, 103, 105, 116]]]

theorem sample_items : Items false sample := by
  simp [sample, Items, Elems, Inside, Ascii, texts, Elem.text]

/-- With FNM_PATHNAME and FNM_PERIOD it matches "a.ye/q*7", so the specification says it does. -/
example : Accepts witness { pathname := true, period := true } sample [97, 46, 121, 101, 47, 113, 42, 55] := by
  obtain ⟨b, h1, h2⟩ := fnmatch_partial witness { pathname := true, period := true } witness_fold sample sample_items (by simp [sample])
    [97, 46, 121, 101, 47, 113, 42, 55] (by simp [Ascii])
  refine h2.1 ?_
  have : fnmatch witness { pathname := true, period := true } (textOf sample) [97, 46, 121, 101, 47, 113, 42, 55] = some true := by decide +kernel
  rw [this] at h1
  injection h1 with h1
  exact h1.symm

/-- And not "a.y/e/q*7", nor "a.ye/.*7". -/
example : ¬ Accepts witness { pathname := true, period := true } sample [97, 46, 121, 47, 101, 47, 113, 42, 55] ∧
    ¬ Accepts witness { pathname := true, period := true } sample [97, 46, 121, 101, 47, 46, 42, 55] := by
  constructor
  · obtain ⟨b, h1, h2⟩ := fnmatch_partial witness { pathname := true, period := true } witness_fold sample sample_items (by simp [sample])
      [97, 46, 121, 47, 101, 47, 113, 42, 55] (by simp [Ascii])
    rw [← h2]
    have : fnmatch witness { pathname := true, period := true } (textOf sample) [97, 46, 121, 47, 101, 47, 113, 42, 55] = some false := by decide +kernel
    rw [this] at h1
    injection h1 with h1
    rw [← h1]; simp
  · obtain ⟨b, h1, h2⟩ := fnmatch_partial witness { pathname := true, period := true } witness_fold sample sample_items (by simp [sample])
      [97, 46, 121, 101, 47, 46, 42, 55] (by simp [Ascii])
    rw [← h2]
    have : fnmatch witness { pathname := true, period := true } (textOf sample) [97, 46, 121, 101, 47, 46, 42, 55] = some false := by decide +kernel
    rw [this] at h1
    injection h1 with h1
    rw [← h1]; simp

/-! ## Where the code differs -/

/-- A collating symbol `[[.a.]]` and an equivalence class `[[=a=]]` do not match "a". -/
theorem collating_violated : fnmatch witness {} [91, 91, 46, 97, 46, 93, 93] [97] = some false ∧ fnmatch witness {} [91, 91, 61, 97, 61, 93, 93] [97] = some false := by
  decide +kernel

/-- `[+--x]` is the range from '+' to '-', and 'x'; it matches 'A': the '-' at the end of the range begins another one. -/
theorem range_minus_violated : fnmatch witness {} [91, 43, 45, 45, 120, 93] [65] = some true := by decide +kernel

/-- With FNM_PERIOD `\\.` does not match ".", without it does. -/
theorem escaped_period_violated : fnmatch witness { period := true } [92, 46] [46] = some false ∧ fnmatch witness {} [92, 46] [46] = some true := by
  decide +kernel

/-- With FNM_PATHNAME a bracket expression cannot contain a slash, so `a[b/c]d` is a list of characters; it does not match itself. -/
theorem bracket_slash_violated : fnmatch witness { pathname := true } [97, 91, 98, 47, 99, 93, 100] [97, 91, 98, 47, 99, 93, 100] = some false := by
  decide +kernel

/-- A range of characters of two bytes: `[!а-я]` does not match 'z'. The code goes on with the last byte of the end point. -/
theorem range_utf8_violated : fnmatch witness {} [91, 33, 208, 176, 45, 209, 143, 93] [122] = some false := by decide +kernel

/-- The pattern "a" matches "a" followed by a byte that is not a character. -/
theorem invalid_rest_violated (env : Env) (h : env.mb [255] = none) : fnmatch env {} [97] [97, 255] = some true := by
  simp [fnmatch, internal, headLoop, patNext, strNext, fits, h]

/-- With FNM_PATHNAME and a byte that is not a character in the pattern the search for the slash does not end. -/
theorem hang_violated (env : Env) (h : env.mb [255] = none) (fl : Flags) (fuel n : Nat) : patSlash env fl fuel [255] n = none := by
  induction fuel generalizing n with
  | zero => rfl
  | succ fuel ih => simp [patSlash, patNext, h, ih]

end Mlibc.Fnmatch
