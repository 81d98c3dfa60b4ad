/-!
# glob

Models options/posix/musl-generic-regex/glob.c. Paths and patterns are lists of bytes without the
terminating zero byte. The file system does not change while glob runs, and allocations succeed.
fnmatch is a parameter (it is modelled in Shell/Fnmatch), and so are qsort and the home directory.
Not modelled: GLOB_NOSPACE, and the value of errno on return.
-/

namespace Mlibc.Glob

/-- What opendir and readdir give: an error number, or the entries (name, d_type) and the error number
at the end (0: none). -/
inductive Dir where
  | err (e : Nat)
  | ok (es : List (List Nat × Nat)) (e : Nat)
  deriving DecidableEq

/-- The file system. `lstat`: 0 or the error number; `stat`: is it a directory? -/
structure Fs where
  lstat : List Nat → Nat
  stat : List Nat → Option Bool
  dir : List Nat → Dir

/-- The flags that matter to do_glob. include/glob.h L11-L25 -/
structure Flags where
  err : Bool := false
  mark : Bool := false
  noescape : Bool := false
  period : Bool := false

/-- fnmatch (with FNM_PERIOD?) and the error function of the caller. -/
structure Env where
  fs : Fs
  fnm : Bool → List Nat → List Nat → Bool
  errf : List Nat → Nat → Bool

/-- limits.h L70 -/
def pathMax : Nat := 4096

/-- DT_DIR. -/
abbrev dtDir : Nat := 4
/-- DT_REG. -/
abbrev dtReg : Nat := 8
/-- DT_LNK. -/
abbrev dtLnk : Nat := 10
/-- ENOENT. -/
abbrev enoent : Nat := 2

/-- What do_glob returns: 0 or GLOB_ABORTED. -/
inductive Code where
  | ok | aborted
  deriving DecidableEq, Repr

/-- append: the name that is stored. L21-L34 -/
def marked (mark : Bool) (name : List Nat) : List Nat :=
  if mark ∧ name ≠ [] ∧ name.getLast? ≠ some 47 then name ++ [47] else name

/-- `while (pos+1 < PATH_MAX && *pat=='/') buf[pos++] = *pat++;` L44 -/
def slashes : List Nat → List Nat → List Nat × List Nat
  | buf, [] => (buf, [])
  | buf, c :: p => if buf.length + 1 < pathMax ∧ c = 47 then slashes (buf ++ [47]) p else (buf, c :: p)

/-- How the loop over the literal prefix ends: return 0, at the end of the pattern (has nothing been
consumed?), or with the pattern of a component that is not literal. -/
inductive Scan where
  | dead
  | done (buf : List Nat) (fresh : Bool)
  | magic (buf pat : List Nat)
  deriving DecidableEq

/-- The loop over the literal prefix. `buf`: what is in front of `pos`, `cur`: the `j` characters behind
it, `comp`: `pat`, the last argument: `pat+i`. L48-L91 -/
def scan (noescape : Bool) (buf cur comp : List Nat) (opened over fresh : Bool) : List Nat → Scan
  | [] => if over then .dead else .done (buf ++ cur) fresh
  | c :: r =>
    if c = 42 ∨ c = 63 ∨ (opened ∧ c = 93) then .magic buf comp
    else if c = 92 ∧ !noescape then
      if opened ∧ r.head? = some 93 then .magic buf comp
      else
        match r with
        | [] => .dead
        | d :: r' =>
          if d = 47 then
            if over then .dead
            else if buf.length + cur.length + 1 < pathMax then scan noescape (buf ++ cur ++ [47]) [] r' false false false r' else .dead
          else if buf.length + cur.length + 1 < pathMax then scan noescape buf (cur ++ [d]) comp opened over false r'
          else if opened then scan noescape buf cur comp opened true false r' else .dead
    else if c = 47 then
      if over then .dead
      else if buf.length + cur.length + 1 < pathMax then scan noescape (buf ++ cur ++ [47]) [] r false false false r else .dead
    else
      let opened := opened || c == 91
      if buf.length + cur.length + 1 < pathMax then scan noescape buf (cur ++ [c]) comp opened over false r
      else if opened then scan noescape buf cur comp opened true false r else .dead

/-- `strchr(pat, '/')` and the test for an escaped slash: the component, and what is left. L118-L128 -/
def cut (noescape : Bool) (pat : List Nat) : List Nat × Option (List Nat) :=
  let a := pat.takeWhile (· ≠ 47)
  match pat.dropWhile (· ≠ 47) with
  | [] => (a, none)
  | rest =>
    if !noescape ∧ (a.reverse.takeWhile (· = 92)).length % 2 = 1 then (a.dropLast, some (92 :: rest)) else (a, some rest)

/-- The tests on a directory entry. L138-L160 -/
def wanted (env : Env) (fl : Flags) (buf comp : List Nat) (left : Bool) (n : List Nat) (t : Nat) : Bool :=
  if left ∧ t ≠ 0 ∧ t ≠ dtDir ∧ t ≠ dtLnk then false
  else if n.length ≥ pathMax - buf.length then false
  else if !env.fnm (!fl.period) comp n then false
  else if left ∧ fl.period ∧ (n = [46] ∨ n = [46, 46]) ∧ !env.fnm true comp n then false
  else true

/-- The loop over the directory; `go` is the recursive call. L135-L173 -/
def entries (env : Env) (fl : Flags) (buf comp : List Nat) (left : Bool) (go : List Nat → Nat → Code × List (List Nat)) (e : Nat) :
    List (List Nat × Nat) → Code × List (List Nat)
  | [] => if e ≠ 0 ∧ (env.errf buf e || fl.err) then (.aborted, []) else (.ok, [])
  | (n, t) :: es =>
    if wanted env fl buf comp left n t then
      let r := go (buf ++ n) t
      if r.1 = .aborted then r
      else let q := entries env fl buf comp left go e es; (q.1, r.2 ++ q.2)
    else entries env fl buf comp left go e es

/-- The end of the pattern: does the file exist, and is it a directory? L93-L116 -/
def atEnd (env : Env) (fl : Flags) (buf : List Nat) (type : Nat) : Code × List (List Nat) :=
  let type := if fl.mark ∧ (type = 0 ∨ type = dtLnk) then
      (match env.fs.stat buf with | some true => dtDir | some false => dtReg | none => type) else type
  if type = 0 ∧ env.fs.lstat buf ≠ 0 then
    if env.fs.lstat buf ≠ enoent ∧ (env.errf buf (env.fs.lstat buf) || fl.err) then (.aborted, []) else (.ok, [])
  else (.ok, [marked (fl.mark && decide (type = dtDir)) buf])

/-- do_glob; the list is what it appends. The recursive calls have shorter patterns: the fuel is the
length of the pattern plus one. L36-L176 -/
def doGlob (env : Env) (fl : Flags) : Nat → List Nat → Nat → List Nat → Code × List (List Nat)
  | 0, _, _, _ => (.ok, [])
  | fuel + 1, buf, type, pat =>
    let type := if type = 0 ∧ !fl.mark then dtReg else type
    let type := if pat ≠ [] ∧ type ≠ dtDir then 0 else type
    let s := slashes buf pat
    match scan fl.noescape s.1 [] s.2 false false true s.2 with
    | .dead => (.ok, [])
    | .done buf fresh => atEnd env fl buf (if fresh then type else 0)
    | .magic buf pat =>
      let c := cut fl.noescape pat
      match env.fs.dir (if buf = [] then [46] else buf) with
      | .err e => if env.errf buf e || fl.err then (.aborted, []) else (.ok, [])
      | .ok es e => entries env fl buf c.1 c.2.isSome (fun b t => doGlob env fl fuel b t (c.2.getD [])) e es

/-- glob_t: gl_pathv up to gl_offs + gl_pathc, gl_pathc, gl_offs; `none` is a null pointer. -/
structure Gl where
  pathv : List (Option (List Nat)) := []
  pathc : Nat := 0
  offs : Nat := 0
  deriving DecidableEq

/-- The flags that matter to glob alone. -/
structure Top where
  append : Bool := false
  dooffs : Bool := false
  nocheck : Bool := false
  nosort : Bool := false
  tilde : Bool := false

/-- The return value of glob. -/
inductive Ret where
  | ok | aborted | nomatch
  deriving DecidableEq, Repr

/-- expand_tilde; `home` gives the home directory of a user ([]: of the caller). `none`: GLOB_NOMATCH.
What is left of the pattern, and the buffer. L196-L228 -/
def tilde (home : List Nat → Option (List Nat)) (pat : List Nat) : Option (List Nat × List Nat) :=
  let user := pat.tail.takeWhile (· ≠ 47)
  let rest := pat.tail.dropWhile (· ≠ 47)
  match home user with
  | none => none
  | some h => if h.length ≤ pathMax - 2 then some (rest.tail, h ++ rest.take 1) else none

/-- The matches, and the error. L245-L257 -/
def matches_ (env : Env) (fl : Flags) (top : Top) (home : List Nat → Option (List Nat)) (pat : List Nat) : Ret × List (List Nat) :=
  if pat = [] then (.ok, [])
  else if top.tilde ∧ pat.head? = some 126 then
    match tilde home pat with
    | none => (.nomatch, [])
    | some (p, b) => let r := doGlob env fl (p.length + 1) b 0 p; (if r.1 = .ok then .ok else .aborted, r.2)
  else let r := doGlob env fl (pat.length + 1) [] 0 pat; (if r.1 = .ok then .ok else .aborted, r.2)

/-- glob. L230-L298 -/
def glob (env : Env) (fl : Flags) (top : Top) (home : List Nat → Option (List Nat)) (sort : List (List Nat) → List (List Nat))
    (pat : List Nat) (g : Gl) : Ret × Gl :=
  let offs := if top.dooffs then g.offs else 0
  let g := if top.append then g else { pathv := [], pathc := 0, offs := offs }
  let r := matches_ env fl top home pat
  if r.2 = [] ∧ !top.nocheck then (.nomatch, g)
  else
    let l := if r.2 = [] then [pat] else r.2
    let l := if top.nosort then l else sort l
    let old := if top.append then g.pathv.take (offs + g.pathc) else List.replicate offs none
    (r.1, { g with pathv := old ++ l.map some ++ [none], pathc := g.pathc + l.length })

/-! ## Specification -/

/-- No backslash without a character behind it. -/
def paired : List Nat → Bool
  | [] => true
  | [c] => c != 92
  | c :: d :: r => if c = 92 then paired r else paired (d :: r)

/-- Does a component contain '*', '?' or a complete bracket expression? -/
def special (noescape : Bool) (opened : Bool) : List Nat → Bool
  | [] => false
  | c :: r =>
    if c = 42 ∨ c = 63 then true
    else if c = 93 ∧ opened then true
    else if c = 91 then special noescape true r
    else if c = 92 ∧ !noescape then
      match r with
      | [] => false
      | d :: r' => (opened && d == 93) || special noescape opened r'
    else special noescape opened r

/-- The component without the backslashes that quote. -/
def unquote (noescape : Bool) : List Nat → List Nat
  | [] => []
  | c :: r =>
    if c = 92 ∧ !noescape then
      match r with
      | [] => []
      | d :: r' => d :: unquote noescape r'
    else c :: unquote noescape r

/-- How a pattern is written: components, each with the slash behind it (quoted by a backslash?). -/
def written : List (List Nat × Bool) → List Nat → List Nat
  | [], last => last
  | (c, q) :: cs, last => c ++ (if q then [92, 47] else [47]) ++ written cs last

/-- A component: no slash, and no backslash without a character behind it if backslashes quote. -/
def Component (noescape : Bool) (c : List Nat) : Prop := 47 ∉ c ∧ (noescape = false → paired c = true)

/-- A pattern: components; the slashes can be quoted if backslashes quote. -/
def Written (noescape : Bool) (cs : List (List Nat × Bool)) (last : List Nat) : Prop :=
  (∀ c ∈ cs, Component noescape c.1 ∧ (c.2 = true → noescape = false)) ∧ Component noescape last

/-- The directory in front of a component. -/
def here (pre : List Nat) : List Nat := if pre = [] then [46] else pre

/-- The names a component stands for in a directory. With GLOB_PERIOD the names "." and ".." have to be
matched explicitly unless the component is the last one. -/
def Names (env : Env) (fl : Flags) (isLast : Bool) (pre c n : List Nat) : Prop :=
  if special fl.noescape false c then
    (∃ es e t, env.fs.dir (here pre) = .ok es e ∧ (n, t) ∈ es) ∧ env.fnm (!fl.period) c n = true ∧
      (isLast = false → (n = [46] ∨ n = [46, 46]) → env.fnm true c n = true)
  else n = unquote fl.noescape c

/-- The pathnames a pattern stands for, behind `pre`. -/
def Expands (env : Env) (fl : Flags) : List Nat → List (List Nat × Bool) → List Nat → List Nat → Prop
  | pre, [], last, path => ∃ n, Names env fl true pre last n ∧ path = pre ++ n
  | pre, (c, _) :: cs, last, path => ∃ n, Names env fl false pre c n ∧ Expands env fl (pre ++ n ++ [47]) cs last path

/-- A file system that does not contradict itself: what a directory lists exists, its types are true,
and below what is neither a directory nor a link there is nothing. -/
structure Coherent (fs : Fs) : Prop where
  exist : ∀ p, fs.stat p ≠ none → fs.lstat p = 0
  distinct : ∀ d es e, fs.dir d = .ok es e → (es.map Prod.fst).Nodup
  listed : ∀ d es e, (d = [] ∨ d.getLast? = some 47) → fs.dir (here d) = .ok es e → ∀ n t, (n, t) ∈ es →
    n ≠ [] ∧ 47 ∉ n ∧ fs.lstat (d ++ n) = 0 ∧
    (t = dtDir → fs.stat (d ++ n) = some true ∧ ∀ k, fs.lstat (d ++ n ++ List.replicate k 47) = 0) ∧
    (t ≠ 0 → t ≠ dtDir → t ≠ dtLnk → fs.stat (d ++ n) ≠ some true ∧
      ∀ r, fs.lstat (d ++ n ++ 47 :: r) ≠ 0 ∧ ∃ e, fs.dir (d ++ n ++ 47 :: r) = .err e)

/-- How many characters stand in front of the first '*', '?' or '['. -/
def literal (noescape : Bool) : List Nat → Nat
  | [] => 0
  | c :: r =>
    if c = 42 ∨ c = 63 ∨ c = 91 then 0
    else if c = 92 ∧ !noescape then
      match r with
      | [] => 0
      | _ :: r' => literal noescape r' + 1
    else literal noescape r + 1

/-- What is needed of fnmatch: the characters in front of the first special one stand for themselves. -/
def Grounded (env : Env) (noescape : Bool) : Prop := ∀ b c n, env.fnm b c n = true → literal noescape c ≤ n.length

/-- The name that is returned for a path: with GLOB_MARK directories get a slash. -/
def shown (env : Env) (fl : Flags) (path : List Nat) : List Nat :=
  if fl.mark = true ∧ env.fs.stat path = some true ∧ path ≠ [] ∧ path.getLast? ≠ some 47 then path ++ [47] else path

/-! ## The literal prefix -/

/-- What the loop over the literal prefix means for a set of paths. -/
def Outcome (env : Env) (fl : Flags) (E : List Nat → Prop) : Scan → Prop
  | .dead => ∀ path, E path → pathMax ≤ path.length
  | .done b _ => b.length < pathMax ∧ ∀ path, E path ↔ path = b
  | .magic b p => b.length < pathMax ∧ (b = [] ∨ b.getLast? = some 47) ∧ ∃ cs last, Written fl.noescape cs last ∧ p = written cs last ∧
      (match cs with | [] => special fl.noescape false last | (c, _) :: _ => special fl.noescape false c) = true ∧
      ∀ path, E path ↔ Expands env fl b cs last path

theorem special_plain (ne o : Bool) (x : Nat) (r : List Nat) (hx : ¬ (x = 92 ∧ (!ne) = true)) :
    special ne o (x :: r) = if x = 42 ∨ x = 63 then true else if x = 93 ∧ o = true then true
      else if x = 91 then special ne true r else special ne o r := by
  conv => lhs; unfold special
  rw [if_neg hx]

theorem unquote_plain (ne : Bool) (x : Nat) (r : List Nat) (hx : ¬ (x = 92 ∧ (!ne) = true)) : unquote ne (x :: r) = x :: unquote ne r := by
  conv => lhs; unfold unquote
  rw [if_neg hx]

theorem literal_plain (ne : Bool) (x : Nat) (r : List Nat) (hx : ¬ (x = 92 ∧ (!ne) = true)) (hm : ¬ (x = 42 ∨ x = 63 ∨ x = 91)) :
    literal ne (x :: r) = literal ne r + 1 := by
  conv => lhs; unfold literal
  rw [if_neg hx, if_neg hm]

theorem scan_stop (ne : Bool) (buf cur comp : List Nat) (o ov fr : Bool) (x : Nat) (r : List Nat) (hm : x = 42 ∨ x = 63 ∨ (o = true ∧ x = 93)) :
    scan ne buf cur comp o ov fr (x :: r) = .magic buf comp := by
  unfold scan
  rw [if_pos hm]

theorem scan_plain (ne : Bool) (buf cur comp : List Nat) (o ov fr : Bool) (x : Nat) (r : List Nat) (hx : ¬ (x = 92 ∧ (!ne) = true))
    (hm : ¬ (x = 42 ∨ x = 63 ∨ (o = true ∧ x = 93))) (h47 : ¬ x = 47) :
    scan ne buf cur comp o ov fr (x :: r) = if buf.length + cur.length + 1 < pathMax then scan ne buf (cur ++ [x]) comp (o || x == 91) ov false r
      else if (o || x == 91) = true then scan ne buf cur comp (o || x == 91) true false r else .dead := by
  conv => lhs; unfold scan
  rw [if_neg hm, if_neg hx, if_neg h47]

/-- A literal component that fits is copied. -/
theorem scan_fits (ne : Bool) (n : Nat) : ∀ (c t buf cur comp : List Nat) (o fr : Bool), c.length ≤ n → 47 ∉ c → (ne = false → paired c = true) →
    special ne o c = false → buf.length + cur.length + (unquote ne c).length < pathMax →
    ∃ o' fr', (c = [] → fr' = fr) ∧ (c ≠ [] → fr' = false) ∧
      scan ne buf cur comp o false fr (c ++ t) = scan ne buf (cur ++ unquote ne c) comp o' false fr' t := by
  induction n with
  | zero =>
    intro c t buf cur comp o fr hn h47 hp hs hb
    have : c = [] := List.length_eq_zero_iff.mp (by omega)
    subst this
    exact ⟨o, fr, fun _ => rfl, by simp, by simp [unquote]⟩
  | succ n ih =>
    intro c t buf cur comp o fr hn h47 hp hs hb
    match c with
    | [] => exact ⟨o, fr, fun _ => rfl, by simp, by simp [unquote]⟩
    | x :: r =>
      by_cases hx : x = 92 ∧ ne = false
      · obtain ⟨rfl, rfl⟩ := hx
        match r with
        | [] => simp [paired] at hp
        | d :: r' =>
          simp only [special, paired, unquote] at hs hp hb
          simp at hs hp hb
          simp at h47 hn
          obtain ⟨o', fr', h1, h2, h3⟩ := ih r' t buf (cur ++ [d]) comp o false (by omega) h47.2 (fun _ => hp) hs.2 (by simp; omega)
          refine ⟨o', fr', by simp, fun _ => ?_, ?_⟩
          · by_cases hr : r' = []
            · exact h1 hr
            · exact h2 hr
          · have hd : ¬ (d = 47) := fun h => h47.1 h.symm
            have hd2 : ¬ (o = true ∧ d = 93) := fun h => hs.1 h.1 h.2
            simp only [List.cons_append, scan]
            simp [hd, hd2, unquote, show buf.length + cur.length + 1 < pathMax by omega]
            simpa using h3
      · have hx' : ¬ (x = 92 ∧ (!ne) = true) := by simpa using hx
        have hx2 : ¬ (x = 92 ∧ ne = false) := hx
        rw [special_plain _ _ _ _ hx'] at hs; rw [unquote_plain _ _ _ hx'] at hb
        have hst : ¬ (x = 42 ∨ x = 63) := by intro h; simp [h] at hs
        have hcl : ¬ (x = 93 ∧ o = true) := by intro h; simp [h] at hs
        have hs' : special ne (o || x == 91) r = false := by
          by_cases h91 : x = 91
          · subst h91; simpa using hs
          · simp [hst, hcl, h91] at hs
            have : (x == 91) = false := by simpa using h91
            simpa [this] using hs
        simp at h47 hn hb
        have hp' : ne = false → paired r = true := by
          intro h
          have h92 : x ≠ 92 := fun h' => hx ⟨h', h⟩
          have := hp h
          match r with
          | [] => rfl
          | d :: r' => simpa [paired, h92] using this
        obtain ⟨o', fr', h1, h2, h3⟩ := ih r t buf (cur ++ [x]) comp (o || x == 91) false (by omega) h47.2 hp' hs' (by simp; omega)
        refine ⟨o', fr', by simp, fun _ => ?_, ?_⟩
        · by_cases hr : r = []
          · exact h1 hr
          · exact h2 hr
        · have hd : ¬ (x = 47) := fun h => h47.1 h.symm
          have hm : ¬ (x = 42 ∨ x = 63 ∨ (o = true ∧ x = 93)) := by
            rintro (h | h | h)
            · exact hst (.inl h)
            · exact hst (.inr h)
            · exact hcl ⟨h.2, h.1⟩
          rw [List.cons_append, scan_plain _ _ _ _ _ _ _ _ _ hx' hm hd, unquote_plain _ _ _ hx', if_pos (show buf.length + cur.length + 1 < pathMax by omega)]
          simpa using h3

/-- A literal component that does not fit is given up, at the latest at its end. -/
theorem scan_long (ne : Bool) (n : Nat) : ∀ (c t buf cur comp : List Nat) (o ov fr : Bool), c.length ≤ n → 47 ∉ c → (ne = false → paired c = true) →
    special ne o c = false → (ov = true ∨ (buf.length + cur.length < pathMax ∧ pathMax ≤ buf.length + cur.length + (unquote ne c).length)) →
    (∀ cur' o' fr', scan ne buf cur' comp o' true fr' t = .dead) →
    scan ne buf cur comp o ov fr (c ++ t) = .dead := by
  induction n with
  | zero =>
    intro c t buf cur comp o ov fr hn h47 hp hs hb ht
    have : c = [] := List.length_eq_zero_iff.mp (by omega)
    subst this
    rcases hb with h | h
    · subst h; exact ht _ _ _
    · simp [unquote] at h; omega
  | succ n ih =>
    intro c t buf cur comp o ov fr hn h47 hp hs hb ht
    match c with
    | [] =>
      rcases hb with h | h
      · subst h; exact ht _ _ _
      · simp [unquote] at h; omega
    | x :: r =>
      by_cases hx : x = 92 ∧ ne = false
      · obtain ⟨rfl, rfl⟩ := hx
        match r with
        | [] => simp [paired] at hp
        | d :: r' =>
          simp only [special, paired, unquote] at hs hp hb
          simp at hs hp hb
          simp at h47 hn
          have hd : ¬ (d = 47) := fun h => h47.1 h.symm
          have hd2 : ¬ (o = true ∧ d = 93) := fun h => hs.1 h.1 h.2
          simp only [List.cons_append, scan]
          simp [hd, hd2]
          split
          · refine ih r' t buf (cur ++ [d]) comp o ov false (by omega) h47.2 (fun _ => hp) hs.2 ?_ ht
            rcases hb with h | h
            · exact .inl h
            · right; simp; omega
          · split
            · exact ih r' t buf cur comp o true false (by omega) h47.2 (fun _ => hp) hs.2 (.inl rfl) ht
            · rfl
      · have hx' : ¬ (x = 92 ∧ (!ne) = true) := by simpa using hx
        rw [special_plain _ _ _ _ hx'] at hs; rw [unquote_plain _ _ _ hx'] at hb
        have hst : ¬ (x = 42 ∨ x = 63) := by intro h; simp [h] at hs
        have hcl : ¬ (x = 93 ∧ o = true) := by intro h; simp [h] at hs
        have hs' : special ne (o || x == 91) r = false := by
          by_cases h91 : x = 91
          · subst h91; simpa using hs
          · simp [hst, hcl, h91] at hs
            have : (x == 91) = false := by simpa using h91
            simpa [this] using hs
        simp at h47 hn hb
        have hp' : ne = false → paired r = true := by
          intro h
          have h92 : x ≠ 92 := fun h' => hx ⟨h', h⟩
          have := hp h
          match r with
          | [] => rfl
          | d :: r' => simpa [paired, h92] using this
        have hd : ¬ (x = 47) := fun h => h47.1 h.symm
        have hm : ¬ (x = 42 ∨ x = 63 ∨ (o = true ∧ x = 93)) := by
          rintro (h | h | h)
          · exact hst (.inl h)
          · exact hst (.inr h)
          · exact hcl ⟨h.2, h.1⟩
        rw [List.cons_append, scan_plain _ _ _ _ _ _ _ _ _ hx' hm hd]
        split
        · refine ih r t buf (cur ++ [x]) comp _ ov false (by omega) h47.2 hp' hs' ?_ ht
          rcases hb with h | h
          · exact .inl h
          · right; simp; omega
        · split
          · exact ih r t buf cur comp _ true false (by omega) h47.2 hp' hs' (.inl rfl) ht
          · rfl

/-- A component that is not literal stops the loop, unless too many characters stand in front of it. -/
theorem scan_special (ne : Bool) (n : Nat) : ∀ (c t buf cur comp : List Nat) (o ov fr : Bool), c.length ≤ n → 47 ∉ c → (ne = false → paired c = true) →
    special ne o c = true →
    scan ne buf cur comp o ov fr (c ++ t) = .magic buf comp ∨
    (o = false ∧ scan ne buf cur comp o ov fr (c ++ t) = .dead ∧ pathMax ≤ buf.length + cur.length + literal ne c) := by
  induction n with
  | zero =>
    intro c t buf cur comp o ov fr hn h47 hp hs
    have : c = [] := List.length_eq_zero_iff.mp (by omega)
    subst this
    simp [special] at hs
  | succ n ih =>
    intro c t buf cur comp o ov fr hn h47 hp hs
    match c with
    | [] => simp [special] at hs
    | x :: r =>
      by_cases hm : x = 42 ∨ x = 63 ∨ (o = true ∧ x = 93)
      · left; exact scan_stop _ _ _ _ _ _ _ _ _ hm
      · have hst : ¬ (x = 42 ∨ x = 63) := fun h => hm (by rcases h with h | h; exact .inl h; exact .inr (.inl h))
        have hcl : ¬ (x = 93 ∧ o = true) := fun h => hm (.inr (.inr ⟨h.2, h.1⟩))
        by_cases hx : x = 92 ∧ ne = false
        · obtain ⟨rfl, rfl⟩ := hx
          match r with
          | [] => simp [paired] at hp
          | d :: r' =>
            simp only [special, paired] at hs hp
            simp at hs hp
            simp at h47 hn
            have hd : ¬ (d = 47) := fun h => h47.1 h.symm
            by_cases hd2 : o = true ∧ d = 93
            · left; simp [List.cons_append, scan, hd2]
            · have hs' : special false o r' = true := hs.resolve_left hd2
              simp only [List.cons_append, scan]
              simp [hd, hd2, literal]
              split
              · have := ih r' t buf (cur ++ [d]) comp o ov false (by omega) h47.2 (fun _ => hp) hs'
                simp at this
                refine this.imp id (fun h => ⟨h.1, h.2.1, by omega⟩)
              · split
                · rename_i ho
                  rcases ih r' t buf cur comp o true false (by omega) h47.2 (fun _ => hp) hs' with h | h
                  · exact .inl h
                  · rw [ho] at h; exact absurd h.1 (by simp)
                · rename_i ho
                  right
                  refine ⟨by simpa using ho, rfl, by omega⟩
        · have hx' : ¬ (x = 92 ∧ (!ne) = true) := by simpa using hx
          rw [special_plain _ _ _ _ hx', if_neg hst, if_neg hcl] at hs
          have hs' : special ne (o || x == 91) r = true := by
            by_cases h91 : x = 91
            · subst h91; simpa using hs
            · simp [h91] at hs
              have : (x == 91) = false := by simpa using h91
              simpa [this] using hs
          simp at h47 hn
          have hp' : ne = false → paired r = true := by
            intro h
            have h92 : x ≠ 92 := fun h' => hx ⟨h', h⟩
            have := hp h
            match r with
            | [] => rfl
            | d :: r' => simpa [paired, h92] using this
          have hd : ¬ (x = 47) := fun h => h47.1 h.symm
          rw [List.cons_append, scan_plain _ _ _ _ _ _ _ _ _ hx' hm hd]
          split
          · rcases ih r t buf (cur ++ [x]) comp (o || x == 91) ov false (by omega) h47.2 hp' hs' with h | h
            · exact .inl h
            · right
              simp at h
              refine ⟨h.1.1, h.2.1, ?_⟩
              have : ¬ (x = 42 ∨ x = 63 ∨ x = 91) := by
                rintro (h' | h' | h')
                · exact hst (.inl h')
                · exact hst (.inr h')
                · exact h.1.2 h'
              rw [literal_plain _ _ _ hx' this]
              have := h.2.2
              omega
          · split
            · rename_i ho
              rcases ih r t buf cur comp (o || x == 91) true false (by omega) h47.2 hp' hs' with h | h
              · exact .inl h
              · rw [ho] at h; exact absurd h.1 (by simp)
            · rename_i hl ho
              right
              simp at ho
              refine ⟨ho.1, rfl, ?_⟩
              have : ¬ (x = 42 ∨ x = 63 ∨ x = 91) := by
                rintro (h' | h' | h')
                · exact hst (.inl h')
                · exact hst (.inr h')
                · exact ho.2 h'
              rw [literal_plain _ _ _ hx' this]
              omega

/-- A slash, perhaps quoted. -/
def sep (q : Bool) : List Nat := if q then [92, 47] else [47]

theorem scan_sep (ne q : Bool) (buf cur comp r : List Nat) (o fr : Bool) (hq : q = true → ne = false) :
    scan ne buf cur comp o false fr (sep q ++ r) =
      if buf.length + cur.length + 1 < pathMax then scan ne (buf ++ cur ++ [47]) [] r false false false r else .dead := by
  cases q
  · show scan ne buf cur comp o false fr (47 :: r) = _
    conv => lhs; unfold scan
    simp
  · have := hq rfl
    subst this
    show scan false buf cur comp o false fr (92 :: 47 :: r) = _
    conv => lhs; unfold scan
    simp

theorem scan_over (ne q : Bool) (buf cur comp r : List Nat) (o fr : Bool) (hq : q = true → ne = false) :
    scan ne buf cur comp o true fr (sep q ++ r) = .dead := by
  cases q
  · show scan ne buf cur comp o true fr (47 :: r) = _
    unfold scan
    simp
  · have := hq rfl
    subst this
    show scan false buf cur comp o true fr (92 :: 47 :: r) = _
    unfold scan
    simp

theorem expands_prefix (env : Env) (fl : Flags) (cs : List (List Nat × Bool)) : ∀ (pre last path : List Nat),
    Expands env fl pre cs last path → ∃ r, path = pre ++ r := by
  induction cs with
  | nil => rintro pre last path ⟨n, -, h⟩; exact ⟨n, h⟩
  | cons c cs ih =>
    rintro pre last path ⟨n, -, h⟩
    obtain ⟨r, hr⟩ := ih _ _ _ h
    exact ⟨n ++ [47] ++ r, by simp [hr]⟩

theorem names_special {env : Env} {fl : Flags} {l : Bool} {pre c n : List Nat} (h : special fl.noescape false c = true) (hn : Names env fl l pre c n) :
    env.fnm (!fl.period) c n = true := by
  rw [Names, if_pos h] at hn
  exact hn.2.1

theorem names_literal {env : Env} {fl : Flags} {l : Bool} {pre c n : List Nat} (h : special fl.noescape false c = false) :
    Names env fl l pre c n ↔ n = unquote fl.noescape c := by
  rw [Names, if_neg (by simp [h])]

theorem outcome (env : Env) (fl : Flags) (hg : Grounded env fl.noescape) (cs : List (List Nat × Bool)) : ∀ (buf last : List Nat) (fr : Bool),
    Written fl.noescape cs last → buf.length < pathMax → (buf = [] ∨ buf.getLast? = some 47) →
    Outcome env fl (Expands env fl buf cs last) (scan fl.noescape buf [] (written cs last) false false fr (written cs last)) := by
  induction cs with
  | nil =>
    intro buf last fr hw hb hbs
    cases hs : special fl.noescape false last
    · by_cases hfit : buf.length + (unquote fl.noescape last).length < pathMax
      · obtain ⟨o', fr', -, -, h⟩ := scan_fits fl.noescape _ last [] buf [] last false fr (Nat.le_refl _) hw.2.1 hw.2.2 hs (by simpa using hfit)
        rw [List.append_nil] at h
        show Outcome _ _ _ (scan fl.noescape buf [] last false false fr last)
        rw [h]
        unfold scan
        simp only [List.nil_append, Bool.false_eq_true, if_false, Outcome]
        refine ⟨by simpa using hfit, fun path => ?_⟩
        simp only [Expands]
        constructor
        · rintro ⟨n, hn, rfl⟩
          rw [(names_literal hs).mp hn]
        · rintro rfl
          exact ⟨_, (names_literal hs).mpr rfl, rfl⟩
      · have h := scan_long fl.noescape _ last [] buf [] last false false fr (Nat.le_refl _) hw.2.1 hw.2.2 hs
          (.inr ⟨by simpa using hb, by simp; omega⟩) (by intro c o f; unfold scan; simp)
        rw [List.append_nil] at h
        show Outcome _ _ _ (scan fl.noescape buf [] last false false fr last)
        rw [h]
        rintro path ⟨n, hn, rfl⟩
        rw [(names_literal hs).mp hn]
        simp
        omega
    · have h := scan_special fl.noescape _ last [] buf [] last false false fr (Nat.le_refl _) hw.2.1 hw.2.2 hs
      rw [List.append_nil] at h
      show Outcome _ _ _ (scan fl.noescape buf [] last false false fr last)
      rcases h with h | ⟨-, h, hl⟩
      · rw [h]
        exact ⟨hb, hbs, [], last, hw, rfl, hs, fun _ => Iff.rfl⟩
      · rw [h]
        rintro path ⟨n, hn, rfl⟩
        have := hg _ _ _ (names_special hs hn)
        simp at hl ⊢
        omega
  | cons c cs ih =>
    obtain ⟨c, q⟩ := c
    intro buf last fr hw hb hbs
    have hc := (hw.1 (c, q) (by simp)).1
    have hq : q = true → fl.noescape = false := (hw.1 (c, q) (by simp)).2
    have hw' : Written fl.noescape cs last := ⟨fun x hx => hw.1 x (by simp [hx]), hw.2⟩
    have htxt : written ((c, q) :: cs) last = c ++ (sep q ++ written cs last) := by simp [written, sep]
    have hpre : ∀ path, Expands env fl buf ((c, q) :: cs) last path → ∃ n, Names env fl false buf c n ∧ buf.length + n.length + 1 ≤ path.length := by
      rintro path ⟨n, hn, h⟩
      obtain ⟨r, rfl⟩ := expands_prefix _ _ _ _ _ _ h
      exact ⟨n, hn, by simp; omega⟩
    cases hs : special fl.noescape false c
    · by_cases hfit : buf.length + (unquote fl.noescape c).length < pathMax
      · obtain ⟨o', fr', -, -, h⟩ := scan_fits fl.noescape _ c (sep q ++ written cs last) buf [] (written ((c, q) :: cs) last) false fr
          (Nat.le_refl _) hc.1 hc.2 hs (by simpa using hfit)
        rw [htxt] at h ⊢
        rw [h, scan_sep _ _ _ _ _ _ _ _ hq]
        split
        · rename_i hlen
          have := ih (buf ++ ([] ++ unquote fl.noescape c) ++ [47]) last false hw' (by simp at hlen ⊢; omega) (by simp)
          simp only [List.nil_append] at this ⊢
          have hE : ∀ path, Expands env fl buf ((c, q) :: cs) last path ↔ Expands env fl (buf ++ unquote fl.noescape c ++ [47]) cs last path := by
            intro path
            simp only [Expands]
            constructor
            · rintro ⟨n, hn, h⟩
              rwa [(names_literal hs).mp hn] at h
            · intro h
              exact ⟨_, (names_literal hs).mpr rfl, h⟩
          have hE' : Expands env fl buf ((c, q) :: cs) last = Expands env fl (buf ++ unquote fl.noescape c ++ [47]) cs last :=
            funext fun p => propext (hE p)
          rw [hE']
          exact this
        · rename_i hlen
          intro path hp
          obtain ⟨n, hn, hl⟩ := hpre path hp
          rw [(names_literal hs).mp hn] at hl
          simp at hlen
          omega
      · have h := scan_long fl.noescape _ c (sep q ++ written cs last) buf [] (written ((c, q) :: cs) last) false false fr (Nat.le_refl _) hc.1 hc.2 hs
          (.inr ⟨by simpa using hb, by simp; omega⟩) (fun _ _ _ => scan_over _ _ _ _ _ _ _ _ hq)
        rw [htxt] at h ⊢
        rw [h]
        intro path hp
        obtain ⟨n, hn, hl⟩ := hpre path hp
        rw [(names_literal hs).mp hn] at hl
        omega
    · have h := scan_special fl.noescape _ c (sep q ++ written cs last) buf [] (written ((c, q) :: cs) last) false false fr (Nat.le_refl _) hc.1 hc.2 hs
      rw [htxt] at h ⊢
      rcases h with h | ⟨-, h, hl⟩
      · rw [h]
        exact ⟨hb, hbs, (c, q) :: cs, last, hw, htxt.symm, hs, fun _ => Iff.rfl⟩
      · rw [h]
        intro path hp
        obtain ⟨n, hn, hln⟩ := hpre path hp
        have := hg _ _ _ (names_special hs hn)
        simp at hl
        omega

/-- The outcome without the note whether something has been consumed. -/
def forget : Scan → Scan
  | .done b _ => .done b true
  | s => s

theorem outcome_forget (env : Env) (fl : Flags) (E : List Nat → Prop) (s : Scan) : Outcome env fl E s ↔ Outcome env fl E (forget s) := by
  cases s <;> exact Iff.rfl

theorem scan_fr (ne : Bool) (buf cur comp : List Nat) (o ov fr fr' : Bool) (l : List Nat) :
    forget (scan ne buf cur comp o ov fr l) = forget (scan ne buf cur comp o ov fr' l) := by
  cases l with
  | nil => unfold scan; cases ov <;> rfl
  | cons c r => unfold scan; rfl

theorem slashes_scan (ne : Bool) (pat : List Nat) : ∀ (buf : List Nat) (fr fr' : Bool),
    forget (scan ne buf [] pat false false fr pat) = forget (scan ne (slashes buf pat).1 [] (slashes buf pat).2 false false fr' (slashes buf pat).2) := by
  induction pat with
  | nil => intro buf fr fr'; exact scan_fr _ _ _ _ _ _ _ _ _
  | cons c p ih =>
    intro buf fr fr'
    rw [slashes]
    split
    · rename_i h
      obtain ⟨hl, rfl⟩ := h
      have := scan_sep ne false buf [] (47 :: p) p false fr (by simp)
      rw [show sep false ++ p = 47 :: p from rfl, if_pos (by simpa using hl)] at this
      rw [this]
      simpa using ih (buf ++ [47]) false fr'
    · exact scan_fr _ _ _ _ _ _ _ _ _

theorem slashes_form (pat : List Nat) : ∀ buf : List Nat, buf.length < pathMax →
    ∃ k, (slashes buf pat).1 = buf ++ List.replicate k 47 ∧ pat = List.replicate k 47 ++ (slashes buf pat).2 ∧ (slashes buf pat).1.length < pathMax := by
  induction pat with
  | nil => intro buf hb; exact ⟨0, by simp [slashes], by simp [slashes], by simpa [slashes] using hb⟩
  | cons c p ih =>
    intro buf hb
    rw [slashes]
    split
    · rename_i h
      obtain ⟨hl, rfl⟩ := h
      obtain ⟨k, h1, h2, h3⟩ := ih (buf ++ [47]) (by simpa using hl)
      refine ⟨k + 1, ?_, ?_, h3⟩
      · rw [h1, List.replicate_succ]; simp
      · rw [List.replicate_succ, List.cons_append, ← h2]
    · exact ⟨0, by simp, by simp, hb⟩

theorem scan_fresh (ne : Bool) (buf cur comp : List Nat) (o ov fr : Bool) (l : List Nat) (b : List Nat) :
    fr = false → scan ne buf cur comp o ov fr l ≠ .done b true := by
  fun_induction scan <;> simp_all

theorem scan_magic_length (ne : Bool) (N : Nat) (buf cur comp : List Nat) (o ov fr : Bool) (l : List Nat) (b p : List Nat) :
    comp.length ≤ N → l.length ≤ N → scan ne buf cur comp o ov fr l = .magic b p → p.length ≤ N := by
  fun_induction scan <;> intro h1 h2 h
  all_goals first
    | (cases h <;> exact h1)
    | (simp only [List.length_cons] at h2; rename_i ih; exact ih (by omega) (by omega) h)

/-! ## The component in front of a slash -/

/-- How many backslashes stand at the end. -/
def run (c : List Nat) : Nat := (c.reverse.takeWhile (· = 92)).length

theorem run_cons (x : Nat) (c : List Nat) : run (x :: c) = if run c = c.length then c.length + (if x = 92 then 1 else 0) else run c := by
  unfold run
  rw [List.reverse_cons, List.takeWhile_append]
  simp only [List.length_reverse]
  split
  · by_cases hx : x = 92 <;> simp [hx]
  · rfl

theorem run_le (c : List Nat) : run c ≤ c.length := by
  unfold run
  have := (List.takeWhile_sublist (fun x : Nat => decide (x = 92)) (l := c.reverse)).length_le
  simpa using this

theorem paired_run (n : Nat) : ∀ c : List Nat, c.length ≤ n → paired c = true → run c % 2 = 0 := by
  induction n with
  | zero =>
    intro c hn _
    have : c = [] := List.length_eq_zero_iff.mp (by omega)
    subst this; rfl
  | succ n ih =>
    intro c hn hp
    match c with
    | [] => rfl
    | [x] =>
      simp [paired] at hp
      rw [run_cons]
      simp [run, hp]
    | x :: y :: r =>
      simp only [paired] at hp
      simp at hn
      have h1 := run_cons x (y :: r)
      have h2 := run_cons y r
      have h3 := run_le r
      split at hp
      · have := ih r (by omega) hp
        simp only [List.length_cons] at h1
        rename_i hx
        simp only [hx, if_true] at h1
        split at h1 <;> split at h2 <;> (try split at h2) <;> (subst hx; omega)
      · have := ih (y :: r) (by simp; omega) hp
        rename_i hx
        simp only [hx, if_false] at h1
        split at h1 <;> omega

theorem cut_last (ne : Bool) (c : List Nat) (h : 47 ∉ c) : cut ne c = (c, none) := by
  have h1 : c.takeWhile (· ≠ 47) = c ∧ c.dropWhile (· ≠ 47) = [] := by
    induction c with
    | nil => simp
    | cons x c ih =>
      simp at h
      have hx : ¬ (x = 47) := fun e => h.1 e.symm
      obtain ⟨h1, h2⟩ := ih h.2
      constructor
      · simpa [hx] using h1
      · simp only [List.dropWhile_cons]
        simpa [hx] using h2
  simp only [cut, h1.1, h1.2]

theorem span_slash (c r : List Nat) (h : 47 ∉ c) :
    (c ++ 47 :: r).takeWhile (· ≠ 47) = c ∧ (c ++ 47 :: r).dropWhile (· ≠ 47) = 47 :: r := by
  induction c with
  | nil => simp
  | cons x c ih =>
    simp at h
    have hx : ¬ (x = 47) := fun e => h.1 e.symm
    obtain ⟨h1, h2⟩ := ih h.2
    constructor
    · simpa [hx] using h1
    · simpa [hx] using h2

theorem cut_sep (ne q : Bool) (c r : List Nat) (h : 47 ∉ c) (hp : ne = false → paired c = true) (hq : q = true → ne = false) :
    cut ne (c ++ (sep q ++ r)) = (c, some (sep q ++ r)) := by
  cases q
  · show cut ne (c ++ 47 :: r) = (c, some (47 :: r))
    obtain ⟨h1, h2⟩ := span_slash c r h
    simp only [cut, h1, h2]
    rw [if_neg]
    rintro ⟨h3, h4⟩
    have := paired_run _ c (Nat.le_refl _) (hp (by simpa using h3))
    unfold run at this
    omega
  · have := hq rfl
    subst this
    show cut false (c ++ 92 :: 47 :: r) = (c, some (92 :: 47 :: r))
    obtain ⟨h1, h2⟩ := span_slash (c ++ [92]) r (by simp [h])
    simp only [List.append_assoc, List.cons_append, List.nil_append] at h1 h2
    simp only [cut, h1, h2]
    rw [if_pos]
    · simp
    · refine ⟨rfl, ?_⟩
      have := paired_run _ c (Nat.le_refl _) (hp rfl)
      unfold run at this
      simp
      omega

/-! ## The end of the pattern, and the directories -/

theorem marked_shown (env : Env) (fl : Flags) (b : List Nat) (d : Bool)
    (h : fl.mark = true → b.getLast? ≠ some 47 → (d = true ↔ env.fs.stat b = some true)) : marked (fl.mark && d) b = shown env fl b := by
  unfold marked shown
  cases hm : fl.mark
  · simp
  · by_cases hl : b.getLast? = some 47
    · simp [hl]
    · have := h hm hl
      by_cases hd : d = true
      · have h2 := this.mp hd
        simp [hd, h2]
      · have h2 : ¬ env.fs.stat b = some true := fun e => hd (this.mpr e)
        simp [hd, h2]

theorem atEnd_spec (env : Env) (fl : Flags) (hc : Coherent env.fs) (b : List Nat) (t : Nat) (h0 : t ≠ 0 → env.fs.lstat b = 0)
    (h1 : t = dtDir → fl.mark = true → env.fs.stat b = some true ∨ b.getLast? = some 47)
    (h2 : t ≠ 0 → t ≠ dtDir → t ≠ dtLnk → fl.mark = true → env.fs.stat b ≠ some true) :
    (∀ out ∈ (atEnd env fl b t).2, env.fs.lstat b = 0 ∧ out = shown env fl b) ∧
    (env.fs.lstat b = 0 → (atEnd env fl b t).1 = .ok ∧ shown env fl b ∈ (atEnd env fl b t).2) := by
  unfold atEnd
  obtain ⟨t', ht'⟩ : ∃ t', (if fl.mark = true ∧ (t = 0 ∨ t = dtLnk) then
      (match env.fs.stat b with | some true => dtDir | some false => dtReg | none => t) else t) = t' := ⟨_, rfl⟩
  simp only [ht']
  have hl : t' ≠ 0 → env.fs.lstat b = 0 := by
    intro h
    split at ht'
    · have := hc.exist b
      split at ht' <;> rename_i hst
      · exact this (by simp [hst])
      · exact this (by simp [hst])
      · subst ht'; exact h0 h
    · subst ht'; exact h0 h
  have hm : fl.mark = true → b.getLast? ≠ some 47 → (decide (t' = dtDir) = true ↔ env.fs.stat b = some true) := by
    intro hmk hlast
    simp only [decide_eq_true_iff]
    by_cases hz : t = 0 ∨ t = dtLnk
    · rw [if_pos ⟨hmk, hz⟩] at ht'
      split at ht' <;> rename_i hst
      · subst ht'; simp [hst]
      · subst ht'; simp [dtDir, dtReg, hst]
      · subst ht'
        simp only [hst]
        rcases hz with h | h <;> simp [h, dtDir, dtLnk]
    · rw [if_neg (fun h => hz h.2)] at ht'
      subst ht'
      by_cases hd : t = dtDir
      · have := (h1 hd hmk).resolve_right hlast
        simp [hd, this]
      · have := h2 (fun h => hz (.inl h)) hd (fun h => hz (.inr h)) hmk
        simp [hd, this]
  by_cases hz : t' = 0 ∧ env.fs.lstat b ≠ 0
  · rw [if_pos hz]
    refine ⟨?_, fun h => absurd h hz.2⟩
    split <;> simp
  · rw [if_neg hz]
    have hz' : env.fs.lstat b = 0 := by
      by_cases h : t' = 0
      · exact Classical.byContradiction fun h' => hz ⟨h, h'⟩
      · exact hl h
    refine ⟨?_, fun _ => ⟨rfl, ?_⟩⟩
    · intro out ho
      simp only [List.mem_singleton] at ho
      exact ⟨hz', ho.trans (marked_shown _ _ _ _ hm)⟩
    · simp only [List.mem_singleton]
      exact (marked_shown _ _ _ _ hm).symm

theorem entries_mem (env : Env) (fl : Flags) (buf comp : List Nat) (left : Bool) (go : List Nat → Nat → Code × List (List Nat)) (e : Nat)
    (es : List (List Nat × Nat)) : ∀ out ∈ (entries env fl buf comp left go e es).2,
    ∃ n t, (n, t) ∈ es ∧ wanted env fl buf comp left n t = true ∧ out ∈ (go (buf ++ n) t).2 := by
  induction es with
  | nil =>
    intro out ho
    rw [entries] at ho
    split at ho <;> simp at ho
  | cons x es ih =>
    obtain ⟨n, t⟩ := x
    intro out ho
    rw [entries] at ho
    split at ho
    · rename_i hw
      simp only at ho
      split at ho
      · exact ⟨n, t, by simp, hw, ho⟩
      · simp only [List.mem_append] at ho
        rcases ho with h | h
        · exact ⟨n, t, by simp, hw, h⟩
        · obtain ⟨n', t', h1, h2⟩ := ih out h
          exact ⟨n', t', by simp [h1], h2⟩
    · obtain ⟨n', t', h1, h2⟩ := ih out ho
      exact ⟨n', t', by simp [h1], h2⟩

theorem entries_all (env : Env) (fl : Flags) (buf comp : List Nat) (left : Bool) (go : List Nat → Nat → Code × List (List Nat)) (e : Nat)
    (es : List (List Nat × Nat)) : (entries env fl buf comp left go e es).1 = .ok → ∀ n t, (n, t) ∈ es → wanted env fl buf comp left n t = true →
    (go (buf ++ n) t).1 = .ok ∧ ∀ out ∈ (go (buf ++ n) t).2, out ∈ (entries env fl buf comp left go e es).2 := by
  induction es with
  | nil => simp
  | cons x es ih =>
    obtain ⟨n, t⟩ := x
    intro ho n' t' hmem hw
    rw [entries] at ho ⊢
    simp only at ho ⊢
    split at ho
    · rename_i hw1
      split at ho
      · rename_i hab; rw [hab] at ho; exact absurd ho (by simp)
      · rename_i hab
        simp only [if_pos hw1, if_neg hab, List.mem_append]
        rcases List.mem_cons.mp hmem with h | h
        · cases h
          refine ⟨?_, fun out h => .inl h⟩
          cases hgo : (go (buf ++ n) t).1
          · rfl
          · exact absurd hgo hab
        · obtain ⟨h1, h2⟩ := ih ho n' t' h hw
          exact ⟨h1, fun out h => .inr (h2 out h)⟩
    · rename_i hw1
      simp only [if_neg hw1]
      rcases List.mem_cons.mp hmem with h | h
      · cases h; exact absurd hw hw1
      · exact ih ho n' t' h hw

theorem atEnd_nodup (env : Env) (fl : Flags) (b : List Nat) (t : Nat) : (atEnd env fl b t).2.Nodup := by
  unfold atEnd
  simp only
  generalize (if fl.mark = true ∧ (t = 0 ∨ t = dtLnk) then _ else t) = t'
  split
  · split <;> simp
  · simp

theorem shown_form (env : Env) (fl : Flags) (b r : List Nat) (h : r = [] ∨ r.head? = some 47) :
    ∃ r', shown env fl (b ++ r) = b ++ r' ∧ (r' = [] ∨ r'.head? = some 47) := by
  unfold shown
  split
  · refine ⟨r ++ [47], by simp, .inr ?_⟩
    rcases h with h | h
    · simp [h]
    · cases r with
      | nil => simp at h
      | cons x r => simpa using h
  · exact ⟨r, rfl, h⟩

theorem name_unique (b n n' r r' : List Nat) (h : 47 ∉ n) (h' : 47 ∉ n') (hr : r = [] ∨ r.head? = some 47) (hr' : r' = [] ∨ r'.head? = some 47)
    (he : b ++ n ++ r = b ++ n' ++ r') : n = n' := by
  have key : ∀ m s : List Nat, 47 ∉ m → (s = [] ∨ s.head? = some 47) → (m ++ s).takeWhile (· ≠ 47) = m := by
    intro m s hm hs
    induction m with
    | nil =>
      rcases hs with h | h
      · simp [h]
      · cases s with
        | nil => simp at h
        | cons x s => simp at h; simp [h]
    | cons x m ih =>
      simp at hm
      have hx : ¬ (x = 47) := fun e => hm.1 e.symm
      have := ih hm.2
      simpa [hx] using this
  rw [List.append_assoc, List.append_assoc] at he
  have := List.append_cancel_left he
  rw [← key n r h hr, this, key n' r' h' hr']

theorem entries_nodup (env : Env) (fl : Flags) (buf comp : List Nat) (left : Bool) (go : List Nat → Nat → Code × List (List Nat)) (e : Nat)
    (es : List (List Nat × Nat)) (hn : (es.map Prod.fst).Nodup) (h47 : ∀ n t, (n, t) ∈ es → 47 ∉ n)
    (hgo : ∀ n t, (n, t) ∈ es → wanted env fl buf comp left n t = true → (go (buf ++ n) t).2.Nodup)
    (hform : ∀ n t, (n, t) ∈ es → wanted env fl buf comp left n t = true → ∀ out ∈ (go (buf ++ n) t).2, ∃ r, out = buf ++ n ++ r ∧ (r = [] ∨ r.head? = some 47)) :
    (entries env fl buf comp left go e es).2.Nodup := by
  induction es with
  | nil => rw [entries]; split <;> simp
  | cons x es ih =>
    obtain ⟨n, t⟩ := x
    simp only [List.map_cons, List.nodup_cons] at hn
    have ih' := ih hn.2 (fun n t h => h47 n t (by simp [h])) (fun n t h => hgo n t (by simp [h])) (fun n t h => hform n t (by simp [h]))
    rw [entries]
    simp only
    split
    · rename_i hw
      split
      · exact hgo n t (by simp) hw
      · refine List.nodup_append.mpr ⟨hgo n t (by simp) hw, ih', ?_⟩
        rintro a ha b hb rfl
        obtain ⟨r, hr, hr1⟩ := hform n t (by simp) hw a ha
        obtain ⟨n', t', hm, hw', hb⟩ := entries_mem _ _ _ _ _ _ _ _ a hb
        obtain ⟨r', hr', hr1'⟩ := hform n' t' (by simp [hm]) hw' a hb
        have := name_unique buf n n' r r' (h47 n t (by simp)) (h47 n' t' (by simp [hm])) hr1 hr1' (hr ▸ hr')
        subst this
        exact hn.1 (List.mem_map.mpr ⟨_, hm, rfl⟩)
    · exact ih'

/-- What the caller knows about the type of the file. -/
structure TypeOk (env : Env) (buf : List Nat) (t : Nat) (p : List Nat) : Prop where
  here : p = [] → env.fs.lstat buf = 0
  dir : t = dtDir → env.fs.stat buf = some true ∧ ∀ k, env.fs.lstat (buf ++ List.replicate k 47) = 0
  other : t ≠ 0 → t ≠ dtDir → t ≠ dtLnk → env.fs.stat buf ≠ some true

/-- The paths do_glob has to find. -/
def Found (env : Env) (E : List Nat → Prop) (path : List Nat) : Prop := E path ∧ env.fs.lstat path = 0 ∧ path.length < pathMax

theorem special_ne_nil {ne : Bool} {c : List Nat} (h : special ne false c = true) : c ≠ [] := by
  rintro rfl
  simp [special] at h

theorem wanted_spec (env : Env) (fl : Flags) (buf c n : List Nat) (left : Bool) (t : Nat) : wanted env fl buf c left n t = true ↔
    ¬ (left = true ∧ t ≠ 0 ∧ t ≠ dtDir ∧ t ≠ dtLnk) ∧ n.length < pathMax - buf.length ∧ env.fnm (!fl.period) c n = true ∧
      (left = true → (n = [46] ∨ n = [46, 46]) → env.fnm true c n = true) := by
  unfold wanted
  by_cases h1 : left = true ∧ t ≠ 0 ∧ t ≠ dtDir ∧ t ≠ dtLnk
  · simp [h1]
  · rw [if_neg h1]
    by_cases h2 : n.length ≥ pathMax - buf.length
    · rw [if_pos h2]
      simp; intro _ h; omega
    · rw [if_neg h2]
      by_cases h3 : env.fnm (!fl.period) c n = true
      · rw [if_neg (by simp [h3])]
        have h2' : n.length < pathMax - buf.length := by omega
        simp only [h1, h2', h3, not_false_eq_true, true_and]
        cases hper : fl.period
        · simp [hper] at h3
          simp [h3]
        · cases left
          · simp
          · by_cases hdot : n = [46] ∨ n = [46, 46]
            · simp [hdot]
            · simp [hdot]
      · rw [if_pos (by simpa using h3)]
        simp [h3]

theorem main (env : Env) (fl : Flags) (hc : Coherent env.fs) (hg : Grounded env fl.noescape) (fuel : Nat) :
    ∀ (p buf : List Nat) (t : Nat) (E : List Nat → Prop), p.length < fuel → buf.length < pathMax → TypeOk env buf t p →
    Outcome env fl E (scan fl.noescape buf [] p false false true p) →
    (∀ out ∈ (doGlob env fl fuel buf t p).2, ∃ path, Found env E path ∧ out = shown env fl path) ∧
    ((doGlob env fl fuel buf t p).1 = .ok → ∀ path, Found env E path → shown env fl path ∈ (doGlob env fl fuel buf t p).2) ∧
    (doGlob env fl fuel buf t p).2.Nodup := by
  induction fuel with
  | zero => intro p buf t E h; omega
  | succ fuel ih =>
    intro p buf t E hfuel hb hty hout
    obtain ⟨k, hs1, hs2, hs3⟩ := slashes_form p buf hb
    rw [outcome_forget, slashes_scan fl.noescape p buf true true, ← outcome_forget] at hout
    rw [doGlob]
    obtain ⟨t1, ht1⟩ : ∃ t1, (if t = 0 ∧ (!fl.mark) = true then dtReg else t) = t1 := ⟨_, rfl⟩
    obtain ⟨t2, ht2⟩ : ∃ t2, (if p ≠ [] ∧ t1 ≠ dtDir then 0 else t1) = t2 := ⟨_, rfl⟩
    simp only [ht1, ht2]
    obtain ⟨sc, hsc⟩ : ∃ sc, scan fl.noescape (slashes buf p).1 [] (slashes buf p).2 false false true (slashes buf p).2 = sc := ⟨_, rfl⟩
    rw [hsc] at hout
    simp only [hsc]
    match sc with
    | .dead =>
      refine ⟨by simp, fun _ path hf => ?_, by simp⟩
      have := hout path hf.1
      have := hf.2.2
      omega
    | .done b fresh =>
      have hfr : fresh = true → b = buf ++ List.replicate k 47 ∧ p = List.replicate k 47 := by
        rintro rfl
        match hr : (slashes buf p).2 with
        | [] =>
          rw [hr] at hsc
          unfold scan at hsc
          simp at hsc
          rw [hr, List.append_nil] at hs2
          exact ⟨by rw [← hsc, hs1], hs2⟩
        | x :: r =>
          rw [hr] at hsc
          exfalso
          have h1 : scan fl.noescape (slashes buf p).1 [] (x :: r) false false true (x :: r) = scan fl.noescape (slashes buf p).1 [] (x :: r) false false false (x :: r) := by
            unfold scan; rfl
          rw [h1] at hsc
          exact scan_fresh _ _ _ _ _ _ _ _ _ rfl hsc
      obtain ⟨hlen, hE⟩ := hout
      obtain ⟨a1, a2⟩ := atEnd_spec env fl hc b (if fresh = true then t2 else 0) (by
          intro h
          split at h
          · rename_i hf
            obtain ⟨hb1, hp1⟩ := hfr hf
            by_cases hp0 : p = []
            · have : k = 0 := by rw [hp0] at hp1; simpa using hp1.symm
              subst this
              simpa [hb1] using hty.here hp0
            · by_cases hd : t1 = dtDir
              · have : t = dtDir := by
                  split at ht1
                  · rw [← ht1] at hd; simp [dtReg, dtDir] at hd
                  · rw [ht1]; exact hd
                rw [hb1]
                exact (hty.dir this).2 k
              · rw [if_pos ⟨hp0, hd⟩] at ht2
                exact absurd ht2.symm h
          · exact absurd rfl h) (by
          intro h hmk
          split at h
          · rename_i hf
            obtain ⟨hb1, hp1⟩ := hfr hf
            have ht1' : t1 = t := by rw [← ht1, if_neg (by simp [hmk])]
            have htd : t = dtDir := by
              split at ht2
              · rw [← ht2] at h; simp [dtDir] at h
              · rw [← ht1', ht2]; exact h
            by_cases hk : k = 0
            · subst hk
              left; simpa [hb1] using (hty.dir htd).1
            · right
              rw [hb1]
              obtain ⟨k', rfl⟩ : ∃ k', k = k' + 1 := ⟨k - 1, by omega⟩
              rw [List.replicate_succ', ← List.append_assoc]
              simp
          · simp [dtDir] at h) (by
          intro h hd hl hmk
          split at h
          · rename_i hf
            obtain ⟨hb1, hp1⟩ := hfr hf
            simp only [if_pos hf] at hd hl
            have ht1' : t1 = t := by rw [← ht1, if_neg (by simp [hmk])]
            by_cases hp0 : p = []
            · have : k = 0 := by rw [hp0] at hp1; simpa using hp1.symm
              subst this
              rw [if_neg (by simp [hp0]), ht1'] at ht2
              subst ht2
              simpa [hb1] using hty.other h hd hl
            · by_cases hd1 : t1 = dtDir
              · rw [if_neg (by simp [hd1])] at ht2
                exact absurd (ht2 ▸ hd1) hd
              · rw [if_pos ⟨hp0, hd1⟩] at ht2
                exact absurd ht2.symm h
          · exact absurd rfl h)
      refine ⟨?_, ?_, atEnd_nodup _ _ _ _⟩
      · intro out ho
        obtain ⟨h1, h2⟩ := a1 out ho
        exact ⟨b, ⟨(hE b).mpr rfl, h1, hlen⟩, h2⟩
      · intro _ path hf
        have := (hE path).mp hf.1
        subst this
        exact (a2 hf.2.1).2
    | .magic b pat =>
      obtain ⟨hlen, hbs, cs, last, hw, hpat, hsp, hE⟩ := hout
      have hpl : pat.length ≤ p.length := by
        have := scan_magic_length fl.noescape (slashes buf p).2.length _ _ _ _ _ _ _ _ _ (Nat.le_refl _) (Nat.le_refl _) hsc
        have h2 := congrArg List.length hs2
        simp at h2
        omega
      simp only
      have hdir : (if b = [] then [46] else b) = here b := rfl
      rw [hdir]
      match hd : env.fs.dir (here b) with
      | .err e =>
        have hno : ∀ path, ¬ E path := by
          intro path hp
          rw [hE] at hp
          match cs, hsp, hp with
          | [], hsp, ⟨n, hn, _⟩ =>
            rw [Names, if_pos hsp] at hn
            obtain ⟨⟨es, e', t', h, _⟩, _⟩ := hn
            rw [hd] at h; cases h
          | (c, q) :: cs, hsp, ⟨n, hn, _⟩ =>
            rw [Names, if_pos hsp] at hn
            obtain ⟨⟨es, e', t', h, _⟩, _⟩ := hn
            rw [hd] at h; cases h
        refine ⟨?_, fun _ path hf => absurd hf.1 (hno path), ?_⟩
        · simp only
          split <;> simp
        · simp only
          split <;> simp
      | .ok es e =>
        simp only
        match cs, hsp, hw, hpat, hE with
        | [], hsp, hw, hpat, hE =>
          have hcut := cut_last fl.noescape last hw.2.1
          rw [show pat = last from hpat, hcut]
          simp only [Option.isSome_none, Option.getD_none]
          have hf0 : 0 < fuel := by
            have := List.length_pos_iff.mpr (special_ne_nil hsp)
            rw [show pat = last from hpat] at hpl
            omega
          have hin : ∀ n t', (n, t') ∈ es → n.length < pathMax - b.length →
              (∀ out ∈ (doGlob env fl fuel (b ++ n) t' []).2, ∃ path, Found env (· = b ++ n) path ∧ out = shown env fl path) ∧
              ((doGlob env fl fuel (b ++ n) t' []).1 = .ok → ∀ path, Found env (· = b ++ n) path → shown env fl path ∈ (doGlob env fl fuel (b ++ n) t' []).2) ∧
              (doGlob env fl fuel (b ++ n) t' []).2.Nodup := by
            intro n t' hm hl
            obtain ⟨l1, l2, l3, l4, l5⟩ := hc.listed b es e hbs hd n t' hm
            refine ih [] (b ++ n) t' _ (by simpa using hf0) (by simp; omega) ⟨fun _ => l3, l4, fun x y z => (l5 x y z).1⟩ ?_
            unfold scan
            simp only [Bool.false_eq_true, if_false, Outcome, List.append_nil]
            exact ⟨by simp; omega, by simp⟩
          refine ⟨?_, ?_, ?_⟩
          · intro out ho
            obtain ⟨n, t', hm, hwn, ho⟩ := entries_mem _ _ _ _ _ _ _ _ out ho
            rw [wanted_spec] at hwn
            obtain ⟨path, hf, rfl⟩ := (hin n t' hm hwn.2.1).1 out ho
            refine ⟨path, ⟨(hE path).mpr ?_, hf.2⟩, rfl⟩
            refine ⟨n, ?_, hf.1⟩
            rw [Names, if_pos hsp]
            exact ⟨⟨es, e, t', hd, hm⟩, hwn.2.2.1, by simp⟩
          · intro hok path hf
            obtain ⟨n, hn, rfl⟩ := (hE path).mp hf.1
            rw [Names, if_pos hsp] at hn
            obtain ⟨⟨es', e', t', hd', hm⟩, hfn, -⟩ := hn
            rw [hd] at hd'
            cases hd'
            have hl := hf.2.2
            simp at hl
            have hwn : wanted env fl b last false n t' = true := by
              rw [wanted_spec]
              exact ⟨by simp, by omega, hfn, by simp⟩
            obtain ⟨g1, g2⟩ := entries_all _ _ _ _ _ _ _ _ hok n t' hm hwn
            exact g2 _ ((hin n t' hm (by omega)).2.1 g1 _ ⟨rfl, hf.2⟩)
          · refine entries_nodup _ _ _ _ _ _ _ es (hc.distinct _ _ _ hd) ?_ ?_ ?_
            · exact fun n t' hm => (hc.listed b es e hbs hd n t' hm).2.1
            · intro n t' hm hwn
              rw [wanted_spec] at hwn
              exact (hin n t' hm hwn.2.1).2.2
            · intro n t' hm hwn out ho
              rw [wanted_spec] at hwn
              obtain ⟨path, ⟨rfl, -⟩, rfl⟩ := (hin n t' hm hwn.2.1).1 out ho
              simpa using shown_form env fl (b ++ n) [] (.inl rfl)
        | (c, q) :: cs, hsp, hw, hpat, hE =>
          have hcc := (hw.1 (c, q) (by simp)).1
          have hq : q = true → fl.noescape = false := (hw.1 (c, q) (by simp)).2
          have hw' : Written fl.noescape cs last := ⟨fun x hx => hw.1 x (by simp [hx]), hw.2⟩
          have htxt : written ((c, q) :: cs) last = c ++ (sep q ++ written cs last) := by simp [written, sep]
          have hcut := cut_sep fl.noescape q c (written cs last) hcc.1 hcc.2 hq
          rw [hpat, htxt, hcut]
          simp only [Option.isSome_some, Option.getD_some]
          have hf0 : (sep q ++ written cs last).length < fuel := by
            have := List.length_pos_iff.mpr (special_ne_nil hsp)
            rw [hpat, htxt, List.length_append] at hpl
            omega
          have hin : ∀ n t', (n, t') ∈ es → n.length < pathMax - b.length →
              (∀ out ∈ (doGlob env fl fuel (b ++ n) t' (sep q ++ written cs last)).2, ∃ path, Found env (Expands env fl (b ++ n ++ [47]) cs last) path ∧ out = shown env fl path) ∧
              ((doGlob env fl fuel (b ++ n) t' (sep q ++ written cs last)).1 = .ok → ∀ path, Found env (Expands env fl (b ++ n ++ [47]) cs last) path →
                shown env fl path ∈ (doGlob env fl fuel (b ++ n) t' (sep q ++ written cs last)).2) ∧
              (doGlob env fl fuel (b ++ n) t' (sep q ++ written cs last)).2.Nodup := by
            intro n t' hm hl
            obtain ⟨l1, l2, l3, l4, l5⟩ := hc.listed b es e hbs hd n t' hm
            refine ih _ (b ++ n) t' _ hf0 (by simp; omega) ⟨fun h => ?_, l4, fun x y z => (l5 x y z).1⟩ ?_
            · cases q <;> simp [sep] at h
            · rw [scan_sep _ _ _ _ _ _ _ _ hq]
              split
              · rename_i hlt
                rw [List.append_nil]
                exact outcome env fl hg cs (b ++ n ++ [47]) last false hw' (by simp at hlt ⊢; omega) (by simp)
              · rename_i hlt
                intro path hp
                obtain ⟨r, rfl⟩ := expands_prefix _ _ _ _ _ _ hp
                simp at hlt ⊢
                omega
          refine ⟨?_, ?_, ?_⟩
          · intro out ho
            obtain ⟨n, t', hm, hwn, ho⟩ := entries_mem _ _ _ _ _ _ _ _ out ho
            rw [wanted_spec] at hwn
            obtain ⟨path, hf, rfl⟩ := (hin n t' hm hwn.2.1).1 out ho
            refine ⟨path, ⟨(hE path).mpr ?_, hf.2⟩, rfl⟩
            refine ⟨n, ?_, hf.1⟩
            rw [Names, if_pos hsp]
            exact ⟨⟨es, e, t', hd, hm⟩, hwn.2.2.1, fun _ => hwn.2.2.2 rfl⟩
          · intro hok path hf
            obtain ⟨n, hn, hrest⟩ := (hE path).mp hf.1
            rw [Names, if_pos hsp] at hn
            obtain ⟨⟨es', e', t', hd', hm⟩, hfn, hdot⟩ := hn
            rw [hd] at hd'
            cases hd'
            obtain ⟨r, hr⟩ := expands_prefix _ _ _ _ _ _ hrest
            have hl := hf.2.2
            rw [hr] at hl
            simp at hl
            have hwn : wanted env fl b c true n t' = true := by
              rw [wanted_spec]
              refine ⟨?_, by omega, hfn, fun _ => hdot rfl⟩
              rintro ⟨-, x, y, z⟩
              obtain ⟨l1, l2, l3, l4, l5⟩ := hc.listed b es e hbs hd n t' hm
              have := ((l5 x y z).2 r).1
              have h2 := hf.2.1
              rw [hr] at h2
              exact this (by simpa using h2)
            obtain ⟨g1, g2⟩ := entries_all _ _ _ _ _ _ _ _ hok n t' hm hwn
            exact g2 _ ((hin n t' hm (by omega)).2.1 g1 _ ⟨hrest, hf.2⟩)
          · refine entries_nodup _ _ _ _ _ _ _ es (hc.distinct _ _ _ hd) ?_ ?_ ?_
            · exact fun n t' hm => (hc.listed b es e hbs hd n t' hm).2.1
            · intro n t' hm hwn
              rw [wanted_spec] at hwn
              exact (hin n t' hm hwn.2.1).2.2
            · intro n t' hm hwn out ho
              rw [wanted_spec] at hwn
              obtain ⟨path, ⟨hp, -⟩, rfl⟩ := (hin n t' hm hwn.2.1).1 out ho
              obtain ⟨r, rfl⟩ := expands_prefix _ _ _ _ _ _ hp
              have := shown_form env fl (b ++ n) (47 :: r) (.inr rfl)
              simpa using this

/-! ## glob -/

/-- Every pattern is written in this way, except one that ends in a single backslash. -/
theorem every_pattern (ne : Bool) (n : Nat) : ∀ pat : List Nat, pat.length ≤ n →
    (∃ cs last, Written ne cs last ∧ pat = written cs last) ∨ (ne = false ∧ paired pat = false) := by
  have prep : ∀ (u : List Nat) (cs : List (List Nat × Bool)) (last : List Nat), Written ne cs last → 47 ∉ u →
      (∀ c, ne = false → paired c = true → paired (u ++ c) = true) → ∃ cs' last', Written ne cs' last' ∧ u ++ written cs last = written cs' last' := by
    intro u cs last hw hu hp
    match cs with
    | [] => exact ⟨[], u ++ last, ⟨by simp, by simp [hu, hw.2.1], fun h => hp _ h (hw.2.2 h)⟩, rfl⟩
    | (c, q) :: cs =>
      have h := hw.1 (c, q) (by simp)
      refine ⟨(u ++ c, q) :: cs, last, ⟨?_, hw.2⟩, by simp [written]⟩
      intro x hx
      rcases List.mem_cons.mp hx with rfl | hx
      · exact ⟨⟨by simp [hu, h.1.1], fun e => hp _ e (h.1.2 e)⟩, h.2⟩
      · exact hw.1 x (by simp [hx])
  induction n with
  | zero =>
    intro pat hn
    have : pat = [] := List.length_eq_zero_iff.mp (by omega)
    subst this
    exact .inl ⟨[], [], ⟨by simp, by simp, fun _ => rfl⟩, rfl⟩
  | succ n ih =>
    intro pat hn
    match pat with
    | [] => exact .inl ⟨[], [], ⟨by simp, by simp, fun _ => rfl⟩, rfl⟩
    | x :: r =>
      simp at hn
      have slash : ∀ q r, (q = true → ne = false) → r.length ≤ n → (∃ cs last, Written ne cs last ∧ sep q ++ r = written cs last) ∨ (ne = false ∧ paired r = false) := by
        intro q r hq hr
        refine (ih r hr).imp ?_ id
        rintro ⟨cs, last, hw, rfl⟩
        refine ⟨([], q) :: cs, last, ⟨?_, hw.2⟩, by simp [written, sep]⟩
        intro y hy
        rcases List.mem_cons.mp hy with rfl | hy
        · exact ⟨⟨by simp, fun _ => rfl⟩, hq⟩
        · exact hw.1 y hy
      have hcons : ∀ (x : Nat) (c : List Nat), x ≠ 92 → paired (x :: c) = paired c := by
        intro x c hx
        cases c with
        | nil => simp [paired, hx]
        | cons d c => simp [paired, hx]
      by_cases h47 : x = 47
      · subst h47
        refine (slash false r (by simp) hn).imp id ?_
        rintro ⟨h1, h2⟩
        exact ⟨h1, by rw [hcons 47 r (by simp)]; exact h2⟩
      · by_cases hx : x = 92 ∧ ne = false
        · obtain ⟨rfl, hne⟩ := hx
          match r with
          | [] => exact .inr ⟨hne, rfl⟩
          | d :: r =>
            simp at hn
            have hpd : ∀ c, paired (92 :: d :: c) = paired c := by intro c; simp [paired]
            by_cases hd : d = 47
            · subst hd
              refine (slash true r (fun _ => hne) (by omega)).imp id ?_
              rintro ⟨h1, h2⟩
              exact ⟨h1, by rw [hpd]; exact h2⟩
            · rcases ih r (by omega) with ⟨cs, last, hw, rfl⟩ | ⟨h1, h2⟩
              · left
                exact prep [92, d] cs last hw (by simp; exact fun h => hd h.symm) (fun c _ hc => by simpa [hpd] using hc)
              · exact .inr ⟨h1, by rw [hpd]; exact h2⟩
        · rcases ih r hn with ⟨cs, last, hw, rfl⟩ | ⟨h1, h2⟩
          · left
            exact prep [x] cs last hw (by simp; exact fun h => h47 h.symm) (fun c e hc => by
              rw [List.cons_append, List.nil_append, hcons x c (fun h => hx ⟨h, e⟩)]; exact hc)
          · exact .inr ⟨h1, by rw [hcons x r (fun h => hx ⟨h, h1⟩)]; exact h2⟩

/-- strcmp does not put the first name behind the second one. -/
def NotBehind (a b : List Nat) : Prop := a ≤ b

/-- The existing files a pattern stands for, as far as their names fit into PATH_MAX bytes. -/
def Matches (env : Env) (fl : Flags) (cs : List (List Nat × Bool)) (last path : List Nat) : Prop :=
  Expands env fl [] cs last path ∧ env.fs.lstat path = 0 ∧ path.length < 4096

theorem matches_spec (env : Env) (fl : Flags) (top : Top) (home : List Nat → Option (List Nat)) (hc : Coherent env.fs) (hg : Grounded env fl.noescape)
    (cs : List (List Nat × Bool)) (last : List Nat) (hw : Written fl.noescape cs last) (htil : top.tilde = false ∨ (written cs last).head? ≠ some 126)
    (h0 : written cs last ≠ []) :
    (∀ out ∈ (matches_ env fl top home (written cs last)).2, ∃ path, Matches env fl cs last path ∧ out = shown env fl path) ∧
    ((matches_ env fl top home (written cs last)).1 = .ok → ∀ path, Matches env fl cs last path → shown env fl path ∈ (matches_ env fl top home (written cs last)).2) ∧
    (matches_ env fl top home (written cs last)).2.Nodup ∧ (matches_ env fl top home (written cs last)).1 ≠ .nomatch := by
  have hm := main env fl hc hg ((written cs last).length + 1) (written cs last) [] 0 (Expands env fl [] cs last) (by omega) (by simp [pathMax])
    ⟨fun h => absurd h h0, by simp [dtDir], by simp⟩ (outcome env fl hg cs [] last true hw (by simp [pathMax]) (.inl rfl))
  unfold matches_
  rw [if_neg h0, if_neg (by rintro ⟨h1, h2⟩; rcases htil with h | h; rw [h] at h1; cases h1; exact h h2)]
  simp only
  refine ⟨hm.1, ?_, hm.2.2, ?_⟩
  · intro hok
    refine hm.2.1 ?_
    split at hok
    · assumption
    · cases hok
  · split <;> simp

/-- glob returns zero: the names are those of the existing files that match the pattern, each once, in
order; if there are none, the pattern, with GLOB_NOCHECK. They stand behind the reserved places or the
names found before, and a null pointer stands behind them. -/
theorem glob_spec (env : Env) (fl : Flags) (top : Top) (home : List Nat → Option (List Nat)) (sort : List (List Nat) → List (List Nat)) (g : Gl)
    (hc : Coherent env.fs) (hg : Grounded env fl.noescape) (hsort : ∀ l, (sort l).Perm l ∧ (sort l).Pairwise NotBehind)
    (cs : List (List Nat × Bool)) (last : List Nat) (hw : Written fl.noescape cs last) (h0 : written cs last ≠ [])
    (htil : top.tilde = false ∨ (written cs last).head? ≠ some 126) (hok : (glob env fl top home sort (written cs last) g).1 = .ok) :
    ∃ names : List (List Nat),
      (glob env fl top home sort (written cs last) g).2.pathv =
        (if top.append then g.pathv.take ((if top.dooffs then g.offs else 0) + g.pathc) else List.replicate (if top.dooffs then g.offs else 0) none)
          ++ names.map some ++ [none] ∧
      (glob env fl top home sort (written cs last) g).2.pathc = (if top.append then g.pathc else 0) + names.length ∧
      names.Nodup ∧ (top.nosort = false → names.Pairwise NotBehind) ∧
      ((∃ path, Matches env fl cs last path) → ∀ out, out ∈ names ↔ ∃ path, Matches env fl cs last path ∧ out = shown env fl path) ∧
      ((¬ ∃ path, Matches env fl cs last path) → top.nocheck = true ∧ names = [written cs last]) := by
  obtain ⟨m1, m2, m3, m4⟩ := matches_spec env fl top home hc hg cs last hw htil h0
  unfold glob at hok ⊢
  simp only at hok ⊢
  obtain ⟨r, hr⟩ : ∃ r, matches_ env fl top home (written cs last) = r := ⟨_, rfl⟩
  rw [hr] at m1 m2 m3 m4 hok
  simp only [hr]
  by_cases hno : r.2 = [] ∧ (!top.nocheck) = true
  · rw [if_pos hno] at hok; cases hok
  · rw [if_neg hno] at hok ⊢
    obtain ⟨l, hl⟩ : ∃ l, (if r.2 = [] then [written cs last] else r.2) = l := ⟨_, rfl⟩
    obtain ⟨l', hl'⟩ : ∃ l', (if top.nosort = true then l else sort l) = l' := ⟨_, rfl⟩
    simp only [hl, hl']
    have hperm : l'.Perm l := by
      rw [← hl']; split
      · exact List.Perm.refl _
      · exact (hsort l).1
    have hlnd : l.Nodup := by
      rw [← hl]; split
      · simp
      · exact m3
    refine ⟨l', ?_, ?_, hperm.nodup_iff.mpr hlnd, ?_, ?_, ?_⟩
    · cases top.append <;> rfl
    · cases top.append <;> rfl
    · intro h
      rw [← hl', if_neg (by simp [h])]
      exact (hsort l).2
    · rintro ⟨path0, hp0⟩ out
      have hne : r.2 ≠ [] := fun h => by
        have := m2 hok path0 hp0
        rw [h] at this; cases this
      rw [hperm.mem_iff, ← hl, if_neg hne]
      exact ⟨m1 out, fun ⟨path, hp, ho⟩ => ho ▸ m2 hok path hp⟩
    · intro hn
      have he : r.2 = [] := by
        cases hr2 : r.2 with
        | nil => rfl
        | cons x xs =>
          obtain ⟨path, hp, -⟩ := m1 x (by rw [hr2]; simp)
          exact absurd ⟨path, hp⟩ hn
      have hl1 : l = [written cs last] := by rw [← hl, if_pos he]
      refine ⟨?_, ?_⟩
      · cases hnc : top.nocheck
        · exact absurd ⟨he, by simp [hnc]⟩ hno
        · rfl
      · rw [hl1] at hperm
        exact List.perm_singleton.mp hperm

theorem entries_ok (env : Env) (fl : Flags) (buf comp : List Nat) (left : Bool) (go : List Nat → Nat → Code × List (List Nat)) (e : Nat)
    (es : List (List Nat × Nat)) (he : fl.err = false) (hf : ∀ p e, env.errf p e = false) (hgo : ∀ b t, (go b t).1 = .ok) :
    (entries env fl buf comp left go e es).1 = .ok := by
  induction es with
  | nil => rw [entries]; simp [he, hf]
  | cons x es ih =>
    obtain ⟨n, t⟩ := x
    rw [entries]
    simp only
    split
    · rw [if_neg (by simp [hgo])]; exact ih
    · exact ih

theorem atEnd_ok (env : Env) (fl : Flags) (b : List Nat) (t : Nat) (he : fl.err = false) (hf : ∀ p e, env.errf p e = false) : (atEnd env fl b t).1 = .ok := by
  unfold atEnd
  simp only
  generalize (if fl.mark = true ∧ (t = 0 ∨ t = dtLnk) then _ else t) = t'
  split
  · simp [he, hf]
  · rfl

theorem doGlob_ok (env : Env) (fl : Flags) (he : fl.err = false) (hf : ∀ p e, env.errf p e = false) (fuel : Nat) :
    ∀ (buf : List Nat) (t : Nat) (p : List Nat), (doGlob env fl fuel buf t p).1 = .ok := by
  induction fuel with
  | zero => intro buf t p; rfl
  | succ fuel ih =>
    intro buf t p
    rw [doGlob]
    simp only
    split
    · rfl
    · exact atEnd_ok _ _ _ _ he hf
    · split
      · simp [he, hf]
      · exact entries_ok _ _ _ _ _ _ _ _ he hf (fun b t => ih b t _)

/-- When nobody asks to stop at errors, glob returns zero or GLOB_NOMATCH, the latter only if no file
matches. Missing: without this hypothesis GLOB_NOMATCH is also returned when the search was stopped. -/
theorem glob_nomatch_partial (env : Env) (fl : Flags) (top : Top) (home : List Nat → Option (List Nat)) (sort : List (List Nat) → List (List Nat)) (g : Gl)
    (hc : Coherent env.fs) (hg : Grounded env fl.noescape) (he : fl.err = false) (hf : ∀ p e, env.errf p e = false)
    (cs : List (List Nat × Bool)) (last : List Nat) (hw : Written fl.noescape cs last) (h0 : written cs last ≠ [])
    (htil : top.tilde = false ∨ (written cs last).head? ≠ some 126) :
    ((glob env fl top home sort (written cs last) g).1 = .ok ↔ (top.nocheck = true ∨ ∃ path, Matches env fl cs last path)) ∧
    ((glob env fl top home sort (written cs last) g).1 = .nomatch ↔ (top.nocheck = false ∧ ¬ ∃ path, Matches env fl cs last path)) := by
  obtain ⟨m1, m2, m3, m4⟩ := matches_spec env fl top home hc hg cs last hw htil h0
  have hok : (matches_ env fl top home (written cs last)).1 = .ok := by
    unfold matches_
    rw [if_neg h0, if_neg (by rintro ⟨h1, h2⟩; rcases htil with h | h; rw [h] at h1; cases h1; exact h h2)]
    simp [doGlob_ok env fl he hf]
  have hiff : (matches_ env fl top home (written cs last)).2 = [] ↔ ¬ ∃ path, Matches env fl cs last path := by
    constructor
    · rintro h ⟨path, hp⟩
      have := m2 hok path hp
      rw [h] at this; cases this
    · intro h
      cases hr2 : (matches_ env fl top home (written cs last)).2 with
      | nil => rfl
      | cons x xs =>
        obtain ⟨path, hp, -⟩ := m1 x (by rw [hr2]; simp)
        exact absurd ⟨path, hp⟩ h
  unfold glob
  simp only
  by_cases hno : (matches_ env fl top home (written cs last)).2 = [] ∧ (!top.nocheck) = true
  · rw [if_pos hno]
    have h1 := hiff.mp hno.1
    have h2 : top.nocheck = false := by simpa using hno.2
    simp [h1, h2]
  · rw [if_neg hno]
    simp only [hok, true_iff, reduceCtorEq, false_iff]
    rw [hiff] at hno
    cases hnc : top.nocheck
    · simp [hnc] at hno
      simp [hno]
    · simp

/-- A file system with the file "a", and the directory "b" with the file "c". -/
def small : Fs where
  lstat p := if p = [97] ∨ p = [98, 47, 99] ∨ (p.head? = some 98 ∧ p.tail.all (· = 47)) then 0 else 2
  stat p := if p = [97] ∨ p = [98, 47, 99] then some false else if p.head? = some 98 ∧ p.tail.all (· = 47) then some true else none
  dir p := if p = [46] then .ok [([97], 8), ([98], 4)] 0 else if p = [98, 47] then .ok [([99], 8)] 0 else .err 20

/-- It does not contradict itself. -/
theorem small_coherent : Coherent small where
  exist := by
    intro p h
    unfold small at h ⊢
    simp only at h ⊢
    split at h
    · rename_i h'
      rw [if_pos (by rcases h' with h' | h' <;> simp [h'])]
    · split at h
      · rename_i h'
        rw [if_pos (.inr (.inr h'))]
      · exact absurd rfl h
  distinct := by
    intro d es e h
    unfold small at h
    simp only at h
    split at h
    · cases h; decide
    · split at h
      · cases h; decide
      · cases h
  listed := by
    intro d es e hd h n t hm
    have hcase : (d = [] ∧ es = [([97], 8), ([98], 4)]) ∨ (d = [98, 47] ∧ es = [([99], 8)]) := by
      unfold small here at h
      simp only at h
      rcases hd with rfl | hd
      · simp at h; exact .inl ⟨rfl, h.1.symm⟩
      · have hne : d ≠ [] := by rintro rfl; simp at hd
        rw [if_neg hne] at h
        split at h
        · rename_i h46; rw [h46] at hd; simp at hd
        · split at h
          · rename_i hb; cases h; exact .inr ⟨hb, rfl⟩
          · cases h
    rcases hcase with ⟨rfl, rfl⟩ | ⟨rfl, rfl⟩
    · simp at hm
      rcases hm with ⟨rfl, rfl⟩ | ⟨rfl, rfl⟩
      · refine ⟨by simp, by simp, by decide, by simp [dtDir], fun _ _ _ => ⟨by decide, fun r => ⟨by simp [small], 20, by simp [small]⟩⟩⟩
      · refine ⟨by simp, by simp, by decide, fun _ => ⟨by decide, fun k => ?_⟩, by simp⟩
        simp [small]
    · simp at hm
      obtain ⟨rfl, rfl⟩ := hm
      refine ⟨by simp, by simp, by decide, by simp [dtDir], fun _ _ _ => ⟨by decide, fun r => ⟨by simp [small], 20, by simp [small]⟩⟩⟩

/-- With an fnmatch that knows the pattern "*" only. -/
def smallEnv : Env := ⟨small, fun _ c n => c == [42] && n.head? != some 46, fun _ _ => false⟩

theorem small_grounded : Grounded smallEnv false := by
  intro b c n h
  simp [smallEnv] at h
  simp [h.1, literal]

/-- The hypotheses are met, and the pattern "*/" with GLOB_MARK, "*/*", "*" are expanded as expected. -/
example : Written false [([42], false)] [42] ∧ (glob smallEnv {} {} (fun _ => none) id [42, 47, 42] {}).2.pathv = [some [98, 47, 99], none] ∧
    (glob smallEnv { mark := true } {} (fun _ => none) id [42] {}).2.pathv = [some [97], some [98, 47], none] ∧
    (glob smallEnv {} {} (fun _ => none) id [42, 47] {}).2.pathv = [some [98, 47], none] ∧
    Matches smallEnv {} [([42], false)] [42] [98, 47, 99] := by
  refine ⟨by simp [Written, Component, paired], by decide +kernel, by decide +kernel, by decide +kernel, ?_, by decide, by simp⟩
  refine ⟨[98], ?_, [99], ?_, rfl⟩
  · rw [Names, if_pos (by decide)]
    exact ⟨⟨[([97], 8), ([98], 4)], 0, 4, by decide, by simp⟩, by decide, by simp⟩
  · rw [Names, if_pos (by decide)]
    exact ⟨⟨[([99], 8)], 0, 8, by decide, by simp⟩, by decide, by simp⟩

/-- The search is stopped because GLOB_ERR is set and a directory cannot be read, but GLOB_NOMATCH is
returned instead of GLOB_ABORTED: the pattern is "a" followed by a slash and a star. -/
theorem glob_aborted_violated : (matches_ smallEnv { err := true } {} (fun _ => none) [97, 47, 42]).1 = .aborted ∧
    (glob smallEnv { err := true } {} (fun _ => none) id [97, 47, 42] {}).1 = .nomatch := by
  decide +kernel

/-- If something was found before the search was stopped, GLOB_ABORTED is returned. -/
theorem glob_aborted_partial (env : Env) (fl : Flags) (top : Top) (home : List Nat → Option (List Nat)) (sort : List (List Nat) → List (List Nat)) (g : Gl)
    (pat : List Nat) (h : (matches_ env fl top home pat).1 = .aborted) (hne : (matches_ env fl top home pat).2 ≠ [] ∨ top.nocheck = true) :
    (glob env fl top home sort pat g).1 = .aborted := by
  unfold glob
  simp only
  rw [if_neg (by rintro ⟨h1, h2⟩; rcases hne with h' | h'; exact h' h1; rw [h'] at h2; cases h2)]
  exact h

end Mlibc.Glob
