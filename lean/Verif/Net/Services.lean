import Verif.Base
import Verif.Db.Text
import Verif.Db.Words
import Verif.Strtol.Props

/-
Services: getservbyname and getservbyport (options/posix/generic/netdb.cpp), with the lookups of
options/posix/generic/services.cpp in /etc/services, and the numeric services of getaddrinfo. Property C84.

A text is the list of its bytes. The machine is LP64. `isspace` and `isalpha` are those of the C locale.
-/
namespace Mlibc.Services
open Mlibc

/-! ## The code -/

/-- `isspace` of the C locale; ansi/generic/ctype.cpp L69-75. -/
def space (c : Nat) : Bool := c == 32 || (9 ≤ c && c ≤ 13)

/-- `isalpha` of the C locale; ansi/generic/ctype.cpp (same scheme as L69-75). -/
def alpha (c : Nat) : Bool := (65 ≤ c && c ≤ 90) || (97 ≤ c && c ≤ 122)

/-- `struct service_buf`, include/mlibc/services.hpp L14-21, without the aliases, which are never filled in. The name is `none` in an
element that was written by `buf[count].port = ...` beyond the end of the empty vector and was never constructed. -/
structure Serv where
  port : Int
  protocol : Nat
  socktype : Int
  name : Option (List Nat)
  deriving DecidableEq, Repr

/-- services.cpp L14-32 `parse_rest`: protocol and socket type, `none` if it returns 0. -/
def parseRest (rest : List Nat) (proto : Int) : Option (Nat × Int) :=
  if [47, 117, 100, 112].isPrefixOf rest then (if proto = 6 then none else some (17, 2))
  else if [47, 116, 99, 112].isPrefixOf rest then (if proto = 17 then none else some (6, 1))
  else none

/-- services.cpp L117-120, L54-57: a comment becomes the end of the line. -/
def cutComment (line : List Nat) : List Nat := if 35 ∈ line then line.takeWhile (· ≠ 35) ++ [10] else line

/-- services.cpp L122-129: is there an occurrence of `name` in the line with space or an end on both sides? `ok`: the character before `s` is
a space or there is none. The search strstr makes (C06) is this walk over all positions; `name` is not empty (L190). -/
def findName (name : List Nat) : Bool → List Nat → Bool
  | _, [] => false
  | ok, c :: s =>
    (ok && name.isPrefixOf (c :: s) && (match ((c :: s).drop name.length).head? with | none => true | some d => space d)) ||
      findName name (space c) s

/-- `int x = strtoul(...)`: the low 32 bits, as a signed number. -/
def toI32 (v : Int) : Int := if v % 2 ^ 32 < 2 ^ 31 then v % 2 ^ 32 else v % 2 ^ 32 - 2 ^ 32

/-- `strtoul(s, &end, 10)` (C10): the value and the offset of `end`. The argument includes the zero byte. -/
def strtoul (s : List Nat) : Res (Int × Nat) :=
  (Strtol.stringToInteger ⟨64, false⟩ space s 10).bind fun r => .ok (r.1, r.2.1)

/-- services.cpp L139-148: the element for the value `v` and the end offset `e` that strtoul gave for `rest`. -/
def addServ (name : List Nat) (proto : Int) (rest : List Nat) (v : Int) (e : Nat) : List Serv :=
  if toI32 v > 65535 ∨ e = 0 then []
  else
    match parseRest (rest.drop e) proto with
    | none => []
    | some (p, t) => [⟨toI32 v, p, t, some name⟩]

/-- services.cpp L114-148, one pass of the loop: what is added to the result for a line read by fgets. -/
def byNameLine (name : List Nat) (proto : Int) (line : List Nat) : Res (List Serv) :=
  let line := cutComment line
  if findName name true line then
    let rest := line.dropWhile (fun c => !space c)
    (strtoul (rest ++ [0])).bind fun (v, e) => .ok (addServ name proto rest v e)
  else .ok []

/-- The loop over the lines, services.cpp L113-150. -/
def byNameLines (name : List Nat) (proto : Int) : List (List Nat) → Res (List Serv)
  | [] => .ok []
  | l :: ls => (byNameLine name proto l).bind fun a => (byNameLines name proto ls).bind fun b => .ok (a ++ b)

/-- The strings that fgets gives for a file: pieces of up to 127 bytes, each up to its first zero byte (L113, L49). -/
def fgetsLines (file : List Nat) : List (List Nat) :=
  (Db.reads 127 file.length file).map (fun l => l.takeWhile (· ≠ 0))

/-- The result of the lookups: a negative error code, or the elements found. -/
inductive Found where
  | err (code : Nat)
  | found (l : List Serv)
  deriving DecidableEq, Repr

/-- services.cpp L97-154 `lookup_serv_file_name`. `file` is `none` when the file cannot be opened, with an errno value for which the code
returns `-EAI_SERVICE` (7; the other errors, -EAI_SYSTEM, make no difference to the callers modelled here). -/
def fileName (file : Option (List Nat)) (name : List Nat) (proto : Int) : Res Found :=
  match file with
  | none => .ok (.err 7)
  | some f => (byNameLines name proto (fgetsLines f)).bind fun l => .ok (.found l)

/-- services.cpp L159-216 `lookup_serv_by_name`. `numericOnly` is the flag AI_NUMERICSERV. In L179 and L198-206 elements of the empty vector are
written: their names are not constructed. -/
def lookupByName (file : Option (List Nat)) (name : Option (List Nat)) (proto socktype : Int) (numericOnly : Bool) : Res Found :=
  let go (proto : Int) : Res Found :=
    let numeric (port : Int) : Found :=
      .found ((if proto ≠ 17 then [⟨port, 6, 1, none⟩] else []) ++ (if proto ≠ 6 then [⟨port, 17, 2, none⟩] else []))
    match name with
    | none => .ok (numeric 0)
    | some [] => .ok (.err 7)
    | some s =>
      (strtoul (s ++ [0])).bind fun (v, e) =>
        if s.drop e = [] then .ok (numeric (v % 2 ^ 32))
        else if numericOnly then .ok (.err 6)
        else fileName file s proto
  if socktype = 1 then
    if proto = 0 then go 6 else if proto ≠ 6 then .ok (.err 7) else go proto
  else if socktype = 2 then
    if proto = 0 then go 17 else if proto ≠ 17 then .ok (.err 7) else go proto
  else if socktype = 0 then go proto
  else
    match name with
    | some _ => .ok (.err 7)
    | none => .ok (.found [⟨0, proto.toNat, socktype, none⟩])

/-- netdb.cpp L589-593, L655-659: the protocol number for a name. -/
def iproto (proto : Option (List Nat)) : Int :=
  match proto with
  | none => -1
  | some p =>
    if [116, 99, 112].isPrefixOf p || [84, 67, 80].isPrefixOf p then 6
    else if [117, 100, 112].isPrefixOf p || [85, 68, 80].isPrefixOf p then 17
    else -1

/-- `struct servent` without the aliases, of which there are never any. The port is the number that the two bytes stand for in network byte
order. -/
structure Servent where
  name : List Nat
  port : Nat
  proto : List Nat
  deriving DecidableEq, Repr

/-- netdb.cpp L614-651 and L680-713: the entry for the first element. -/
def servent (proto : Option (List Nat)) (s : Serv) : Res (Option Servent) :=
  match s.name with
  | none => .ub
  | some n =>
    let port := (s.port % 65536).toNat
    match proto with
    | some p => .ok (some ⟨n, port, p⟩)
    | none => if s.protocol = 6 then .ok (some ⟨n, port, [116, 99, 112]⟩) else if s.protocol = 17 then .ok (some ⟨n, port, [117, 100, 112]⟩)
      else .ok none

/-- netdb.cpp L588-652 `getservbyname`; `none` is NULL. -/
def getservbyname (file : Option (List Nat)) (name : List Nat) (proto : Option (List Nat)) : Res (Option Servent) :=
  (lookupByName file (some name) (iproto proto) 0 false).bind fun
    | .err _ => .ok none
    | .found [] => .ok none
    | .found (s :: _) => servent proto s

/-- fgets into the buffer of L47-49: the line and a zero byte over what was there; the first byte of the buffer is zero. -/
def put (buf line : List Nat) : List Nat := 0 :: line ++ 0 :: buf.drop (line.length + 2)

/-- services.cpp L62-63: the number is not the port that is looked for. -/
def otherPort (v port : Int) : Bool := toI32 v != port || toI32 v > 65535

/-- services.cpp L60-74: the loop that looks for the port from offset `pos` of the buffer. The offset where the number begins (with the
space before it) and where it ends; `none`: not found. The first argument bounds the iterations. -/
def portLoop (buf : List Nat) (port : Int) : Nat → Nat → Res (Option (Nat × Nat))
  | 0, _ => .ub
  | fuel + 1, pos =>
    match buf[pos]? with
    | none => .ub
    | some c =>
      if c = 0 then .ok none
      else
        let pos := pos + ((buf.drop pos).takeWhile alpha).length
        (strtoul (buf.drop pos)).bind fun (v, e) =>
          if otherPort v port then portLoop buf port fuel (pos + e + 1)
          else .ok (some (pos, pos + e))

/-- services.cpp L49-91, one pass of the loop, with the buffer that fgets has filled. -/
def byPortLine (proto port : Int) (buf : List Nat) : Res (List Serv) :=
  (portLoop buf port (buf.length + 1) 1).bind fun
    | none => .ok []
    | some (pos, e) =>
      let before := (buf.take pos).reverse.takeWhile (· ≠ 0)
      let nameLength := (before.filter (fun c => !space c)).length
      if nameLength = 0 then .ok []
      else
        match parseRest ((buf.drop e).takeWhile (· ≠ 0)) proto with
        | none => .ok []
        | some (p, t) => .ok [⟨port, p, t, some ((buf.drop (pos - before.length)).take nameLength)⟩]

/-- L54-57 on the buffer of L47: the text from the second byte on, up to the zero byte, has its comment cut; the bytes behind stay. -/
def cutBuf (buf line : List Nat) : List Nat :=
  if 35 ∈ line then put (put buf line) (line.takeWhile (· ≠ 35) ++ [10]) else put buf line

/-- The loop over the lines, services.cpp L49-91. -/
def byPortLines (proto port : Int) : List Nat → List (List Nat) → Res (List Serv)
  | _, [] => .ok []
  | buf, l :: ls =>
    (byPortLine proto port (cutBuf buf l)).bind fun a => (byPortLines proto port (cutBuf buf l) ls).bind fun b => .ok (a ++ b)

/-- netdb.cpp L654-714 `getservbyport` with services.cpp L34-95 `lookup_serv_file_port`; `port` is the number that the argument stands for in network
byte order (L681). -/
def getservbyport (file : Option (List Nat)) (port : Nat) (proto : Option (List Nat)) : Res (Option Servent) :=
  match file with
  | none => .ok none
  | some f =>
    (byPortLines (iproto proto) port (List.replicate 129 0) (fgetsLines f)).bind fun
      | [] => .ok none
      | s :: _ => servent proto s

/-! ## Specification -/

open Words

/-- An entry of /etc/services. -/
structure Entry where
  name : List Nat
  port : Nat
  proto : List Nat
  aliases : List (List Nat)
  deriving DecidableEq

/-- The entry on a line: a name, port/protocol, aliases; behind # is a comment. -/
def entry (line : List Nat) : Option Entry :=
  match words (line.takeWhile (· ≠ 35)) with
  | n :: pp :: as =>
    some ⟨n, (pp.takeWhile (· ≠ 47)).foldl (fun v c => 10 * v + (c - 48)) 0, pp.drop ((pp.takeWhile (· ≠ 47)).length + 1), as⟩
  | _ => none

/-- "tcp" and "udp". -/
def tcp : List Nat := [116, 99, 112]
def udp : List Nat := [117, 100, 112]

/-- The second word of an entry: digits that make a number up to 65535, a slash, and tcp, udp or something not beginning with these. -/
def GoodPort (pp : List Nat) : Prop :=
  ∃ ds p, pp = ds ++ 47 :: p ∧ ds ≠ [] ∧ (∀ c ∈ ds, 48 ≤ c ∧ c ≤ 57) ∧ ds.foldl (fun v c => 10 * v + (c - 48)) 0 ≤ 65535 ∧
    (p = tcp ∨ p = udp ∨ (¬ tcp <+: p ∧ ¬ udp <+: p))

/-- A line of a well-formed file: not too long, and with nothing but a comment, or an entry from the first column on. -/
def GoodLine (line : List Nat) : Prop :=
  10 ∉ line ∧ 0 ∉ line ∧ line.length < 127 ∧
    (words (line.takeWhile (· ≠ 35)) = [] ∨
      ((∀ c, line.head? = some c → white c = false) ∧
        ∃ n pp as, words (line.takeWhile (· ≠ 35)) = n :: pp :: as ∧ GoodPort pp))

/-- The text is what strtoul takes for a number. -/
def Numeric (s : List Nat) : Prop :=
  ∃ sign ds, s = sign ++ ds ∧ (sign = [] ∨ sign = [43] ∨ sign = [45]) ∧ ds ≠ [] ∧ ∀ c ∈ ds, 48 ≤ c ∧ c ≤ 57

/-- The entry is one for the name and the protocol; entries for other protocols than tcp and udp are passed over. -/
def serves (name : List Nat) (proto : Option (List Nat)) (e : Entry) : Bool :=
  (e.name == name || e.aliases.contains name) && (e.proto == tcp || e.proto == udp) && (proto == none || proto == some e.proto)

/-- The same for a port number. -/
def servesPort (port : Nat) (proto : Option (List Nat)) (e : Entry) : Bool :=
  e.port == port && (e.proto == tcp || e.proto == udp) && (proto == none || proto == some e.proto)

/-! ## Proofs -/

theorem space_eq : space = white := by
  funext c
  rw [Bool.eq_iff_iff]
  simp only [white, space, Bool.or_eq_true, Bool.and_eq_true, beq_iff_eq, decide_eq_true_eq]
  omega

theorem takeWhile_name (name t : List Nat) (hn : ∀ c ∈ name, white c = false) (ht : ∀ c, t.head? = some c → white c = true) :
    (name ++ t).takeWhile (fun c => !white c) = name ∧ (name ++ t).dropWhile (fun c => !white c) = t := by
  induction name with
  | nil =>
    cases t with
    | nil => simp
    | cons c t => simp [List.takeWhile_cons, List.dropWhile_cons, ht c rfl]
  | cons c name ih =>
    have h := ih (fun x hx => hn x (by simp [hx]))
    rw [List.cons_append, List.takeWhile_cons_of_pos (by simp [hn c (by simp)]), List.dropWhile_cons_of_pos (by simp [hn c (by simp)]), h.1, h.2]
    exact ⟨rfl, rfl⟩

/-- The search of services.cpp finds the words of the line. -/
theorem findName_iff (name : List Nat) (hne : name ≠ []) (hw : ∀ c ∈ name, white c = false) (s : List Nat) (ok : Bool) :
    findName name ok s = true ↔ name ∈ words (if ok then s else s.dropWhile (fun c => !white c)) := by
  induction s generalizing ok with
  | nil => cases ok <;> simp [findName, words, pieces]
  | cons c s ih =>
    rw [findName, Bool.or_eq_true, ih, space_eq]
    by_cases hc : white c = true
    · have hp : name.isPrefixOf (c :: s) = false := by
        cases name with
        | nil => exact absurd rfl hne
        | cons d name =>
          have := hw d (by simp)
          simp only [List.isPrefixOf, Bool.and_eq_false_iff, beq_eq_false_iff_ne, ne_eq]
          left
          intro e
          rw [e] at this
          simp [this] at hc
      have : (if ok = true then c :: s else (c :: s).dropWhile (fun c => !white c)) = c :: s := by
        split
        · rfl
        · rw [List.dropWhile_cons_of_neg (by simp [hc])]
      rw [this, words_white c s hc, hp]
      simp [hc]
    · simp only [Bool.not_eq_true] at hc
      cases ok with
      | false => simp [hc]
      | true =>
        have hd : c :: s = (c :: s).takeWhile (fun c => !white c) ++ (c :: s).dropWhile (fun c => !white c) :=
          (List.takeWhile_append_dropWhile).symm
        have hr : ∀ d, ((c :: s).dropWhile (fun c => !white c)).head? = some d → white d = true := by
          intro d hd
          simpa using head_dropWhile' _ _ d hd
        have hword := words_word ((c :: s).takeWhile (fun c => !white c)) ((c :: s).dropWhile (fun c => !white c)) (by rw [List.takeWhile_cons_of_pos (by simp [hc])]; simp)
          (fun d hd => by simpa using takeWhile_all (fun c => !white c) (c :: s) d hd) hr
        rw [← hd, List.dropWhile_cons_of_pos (by simp [hc])] at hword
        simp only [if_true, hc, Bool.false_eq_true, if_false, hword, List.mem_cons]
        apply or_congr
        · constructor
          · intro h
            simp only [Bool.and_eq_true, Bool.true_and] at h
            obtain ⟨t, ht⟩ := List.isPrefixOf_iff_prefix.1 h.1
            have h2 := h.2
            rw [← ht, List.drop_left] at h2
            rw [← ht, (takeWhile_name name t hw ?_).1]
            intro d hd
            rw [hd] at h2
            exact h2
          · intro h
            have hd' := hd
            rw [← h] at hd'
            rw [hd', List.drop_left]
            simp only [Bool.true_and, Bool.and_eq_true]
            refine ⟨List.isPrefixOf_iff_prefix.2 ⟨_, rfl⟩, ?_⟩
            cases hh : ((c :: s).dropWhile (fun c => !white c)).head? with
            | none => rfl
            | some d => exact hr d hh
        · exact Iff.rfl

/-- The number written by decimal digits; the same as in `entry`. -/
def num (ds : List Nat) : Nat := ds.foldl (fun v c => 10 * v + (c - 48)) 0

theorem base10 (u : List Nat) : Strtol.Spec.baseAndPrefix 10 u = (10, 0) := by
  unfold Strtol.Spec.baseAndPrefix
  repeat' split
  all_goals simp_all

theorem isDigitIn_iff (c : Nat) : Strtol.Spec.isDigitIn 10 c = true ↔ 48 ≤ c ∧ c ≤ 57 := by
  unfold Strtol.Spec.isDigitIn Strtol.Spec.digitOf
  by_cases h : 48 ≤ c ∧ c ≤ 57
  · rw [if_pos h]; simp; omega
  · rw [if_neg h]
    by_cases h2 : 65 ≤ c ∧ c ≤ 90
    · rw [if_pos h2]; simp; omega
    · rw [if_neg h2]
      by_cases h3 : 97 ≤ c ∧ c ≤ 122
      · rw [if_pos h3]; simp; omega
      · rw [if_neg h3]; simp; omega

theorem valueOf_num (ds : List Nat) (h : ∀ c ∈ ds, 48 ≤ c ∧ c ≤ 57) : Strtol.Spec.valueOf 10 ds = num ds := by
  unfold Strtol.Spec.valueOf num
  suffices hs : ∀ v, ds.foldl (fun acc c => acc * 10 + (Strtol.Spec.digitOf c).getD 0) v = ds.foldl (fun v c => 10 * v + (c - 48)) v from hs 0
  intro v
  induction ds generalizing v with
  | nil => rfl
  | cons c ds ih =>
    have hc := h c (by simp)
    simp only [List.foldl_cons]
    rw [ih (fun x hx => h x (by simp [hx]))]
    congr 1
    unfold Strtol.Spec.digitOf
    rw [if_pos hc]
    simp
    omega

theorem strtoul_spec (s rest : List Nat) (h0 : 0 ∉ s) :
    strtoul (s ++ 0 :: rest) =
      .ok (match Strtol.Spec.parse white 10 s with
        | none => (0, 0)
        | some (n, neg, mag) => ((Strtol.Spec.unsignedResult (2 ^ 64 - 1) neg mag).1, n)) := by
  unfold strtoul
  rw [space_eq, Strtol.strtol_exact_partial ⟨64, false⟩ (by decide) white (by decide) _ s ⟨h0, rest, rfl⟩ 10 (by decide) (by omega)]
  cases Strtol.Spec.parse white 10 s with
  | none => rfl
  | some r => obtain ⟨n, neg, mag⟩ := r; rfl

theorem digit_not_white (c : Nat) (h : 48 ≤ c ∧ c ≤ 57) : white c = false := by
  simp only [white, Bool.or_eq_false_iff, beq_eq_false_iff_ne, ne_eq]
  omega

theorem takeWhile_split {p : Nat → Bool} (a b : List Nat) (ha : ∀ c ∈ a, p c = true) (hb : ∀ c, b.head? = some c → p c = false) :
    (a ++ b).takeWhile p = a := by
  induction a with
  | nil =>
    cases b with
    | nil => rfl
    | cons c b => rw [List.nil_append, List.takeWhile_cons_of_neg (by simp [hb c rfl])]
  | cons c a ih =>
    rw [List.cons_append, List.takeWhile_cons_of_pos (ha c (by simp)), ih (fun x hx => ha x (by simp [hx]))]

theorem parse_digits (gap ds t : List Nat) (hg : ∀ c ∈ gap, white c = true) (hne : ds ≠ []) (hd : ∀ c ∈ ds, 48 ≤ c ∧ c ≤ 57)
    (ht : ∀ c, t.head? = some c → ¬ (48 ≤ c ∧ c ≤ 57)) :
    Strtol.Spec.parse white 10 (gap ++ (ds ++ t)) = some (gap.length + ds.length, false, num ds) := by
  have h1 : (gap ++ (ds ++ t)).takeWhile white = gap := by
    apply takeWhile_split _ _ hg
    intro c hc
    cases ds with
    | nil => exact absurd rfl hne
    | cons d ds =>
      simp at hc
      subst hc
      exact digit_not_white d (hd d (by simp))
  have hhead : (ds ++ t).head? ≠ some 45 ∧ (ds ++ t).head? ≠ some 43 := by
    cases ds with
    | nil => exact absurd rfl hne
    | cons d ds =>
      have := hd d (by simp)
      simp only [List.cons_append, List.head?_cons, ne_eq, Option.some.injEq]
      omega
  have h2 : (ds ++ t).takeWhile (Strtol.Spec.isDigitIn 10) = ds := by
    apply takeWhile_split _ _ (fun c hc => (isDigitIn_iff c).2 (hd c hc))
    intro c hc
    have := ht c hc
    rw [← isDigitIn_iff] at this
    simpa using this
  unfold Strtol.Spec.parse
  simp only [h1, List.drop_left, hhead.1, hhead.2, or_self, if_false, List.drop_zero, base10, h2, hne, decide_false, Nat.add_zero,
    valueOf_num ds hd]

theorem strtoul_digits (gap ds t rest : List Nat) (hg : ∀ c ∈ gap, white c = true) (hne : ds ≠ []) (hd : ∀ c ∈ ds, 48 ≤ c ∧ c ≤ 57)
    (ht : ∀ c, t.head? = some c → ¬ (48 ≤ c ∧ c ≤ 57)) (hv : num ds ≤ 65535) (h0 : 0 ∉ gap ++ (ds ++ t)) :
    strtoul (gap ++ (ds ++ t) ++ 0 :: rest) = .ok (num ds, gap.length + ds.length) := by
  rw [strtoul_spec _ _ h0, parse_digits gap ds t hg hne hd ht]
  simp only [Strtol.Spec.unsignedResult]
  rw [if_neg (by omega)]
  simp

theorem toI32_small (n : Nat) (h : n ≤ 65535) : toI32 n = n := by
  unfold toI32
  rw [Int.emod_eq_of_lt (by omega) (by omega), if_pos (by omega)]

theorem otherPort_digits (n port : Nat) (h : n ≤ 65535) : otherPort n port = !decide (n = port) := by
  unfold otherPort
  rw [toI32_small n h, Bool.eq_iff_iff]
  simp only [bne_iff_ne, ne_eq, Bool.or_eq_true, decide_eq_true_eq, Bool.not_eq_true', decide_eq_false_iff_not]
  omega

theorem otherPort_zero (port : Nat) (h : 1 ≤ port) : otherPort 0 port = true := by
  have := otherPort_digits 0 port (by decide)
  rw [show ((0 : Nat) : Int) = 0 from rfl] at this
  rw [this]
  simp
  omega

theorem pieces_append (s : List Nat) (c : Nat) (h : white c = true) : pieces (s ++ [c]) = pieces s ++ [[]] := by
  induction s with
  | nil => simp [pieces, h]
  | cons a s ih =>
    rw [List.cons_append, pieces, pieces, ih]
    by_cases ha : white a = true
    · rw [if_pos ha, if_pos ha]; rfl
    · rw [if_neg ha, if_neg ha]
      cases hp : pieces s with
      | nil => exact absurd hp (pieces_ne s)
      | cons w r => rfl

theorem words_append (s : List Nat) (c : Nat) (h : white c = true) : words (s ++ [c]) = words s := by
  unfold words
  rw [pieces_append s c h, List.filter_append]
  simp

theorem cutComment_eq (line : List Nat) : cutComment (line ++ [10]) = line.takeWhile (· ≠ 35) ++ [10] := by
  unfold cutComment
  by_cases h : 35 ∈ line
  · rw [if_pos (by simp [h])]
    congr 1
    induction line with
    | nil => simp at h
    | cons c line ih =>
      rw [List.cons_append]
      by_cases hc : c = 35
      · subst hc
        rw [List.takeWhile_cons_of_neg (by simp), List.takeWhile_cons_of_neg (by simp)]
      · have : 35 ∈ line := by
          rcases List.mem_cons.1 h with h | h
          · exact absurd h.symm hc
          · exact h
        rw [List.takeWhile_cons_of_pos (by simpa using hc), List.takeWhile_cons_of_pos (by simpa using hc), ih this]
  · rw [if_neg (by simp [h])]
    congr 1
    exact (Strtol.takeWhile_all _ _ (fun x hx => by simp; intro e; exact h (e ▸ hx))).symm

theorem prefix_word (a p r : List Nat) (ha : ∀ c ∈ a, white c = false) (hr : ∀ c, r.head? = some c → white c = true) :
    a.isPrefixOf (p ++ r) = true ↔ a <+: p := by
  rw [List.isPrefixOf_iff_prefix]
  constructor
  · intro h
    induction a generalizing p with
    | nil => exact List.nil_prefix
    | cons x a ih =>
      cases p with
      | nil =>
        obtain ⟨t, ht⟩ := h
        have := hr x (by rw [List.nil_append] at ht; rw [← ht]; rfl)
        rw [ha x (by simp)] at this
        exact absurd this (by simp)
      | cons y p =>
        rw [List.cons_append, List.cons_prefix_cons] at h
        rw [List.cons_prefix_cons]
        exact ⟨h.1, ih p (fun c hc => ha c (by simp [hc])) h.2⟩
  · intro h
    exact h.trans (List.prefix_append p r)

theorem parseRest_eq (p r : List Nat) (proto : Int) (hp : p = tcp ∨ p = udp ∨ (¬ tcp <+: p ∧ ¬ udp <+: p))
    (hr : ∀ c, r.head? = some c → white c = true) :
    parseRest (47 :: p ++ r) proto =
      if p = udp then (if proto = 6 then none else some (17, 2))
      else if p = tcp then (if proto = 17 then none else some (6, 1)) else none := by
  have hu := prefix_word udp p r (by decide) hr
  have ht := prefix_word tcp p r (by decide) hr
  unfold parseRest
  rw [show [47, 117, 100, 112].isPrefixOf (47 :: p ++ r) = udp.isPrefixOf (p ++ r) from by simp [udp, List.isPrefixOf],
    show [47, 116, 99, 112].isPrefixOf (47 :: p ++ r) = tcp.isPrefixOf (p ++ r) from by simp [tcp, List.isPrefixOf]]
  rcases hp with rfl | rfl | ⟨h1, h2⟩
  · rw [if_neg (by rw [hu]; decide), if_pos (by rw [ht]; exact List.prefix_refl _), if_neg (show ¬ tcp = udp by decide), if_pos rfl]
  · rw [if_pos (by rw [hu]; exact List.prefix_refl _), if_pos rfl]
  · rw [if_neg (by rw [hu]; exact h2), if_neg (by rw [ht]; exact h1),
      if_neg (show ¬ p = udp from fun e => h2 (by rw [e]; exact List.prefix_refl _)),
      if_neg (show ¬ p = tcp from fun e => h1 (by rw [e]; exact List.prefix_refl _))]

/-- The anatomy of an entry line, with the newline that fgets leaves. -/
structure Shape (l n ds p r : List Nat) (as : List (List Nat)) where
  gap : List Nat
  eq : l ++ [10] = n ++ (gap ++ (ds ++ (47 :: p ++ r)))
  n_ne : n ≠ []
  n_white : ∀ c ∈ n, white c = false
  gap_ne : gap ≠ []
  gap_white : ∀ c ∈ gap, white c = true
  p_white : ∀ c ∈ p, white c = false
  r_white : ∀ c, r.head? = some c → white c = true
  rest : words r = as

theorem dropWhile_all_white (s : List Nat) (c : Nat) : c ∈ s.takeWhile white → white c = true := fun h => takeWhile_all white s c h

theorem shape_of (l n pp ds p : List Nat) (as : List (List Nat)) (hl : ∀ c, l.head? = some c → white c = false)
    (hw : words l = n :: pp :: as) (hpp : pp = ds ++ 47 :: p) : ∃ r, Nonempty (Shape l n ds p r as) := by
  have hw' : words (l ++ [10]) = n :: pp :: as := by rw [words_append _ _ (by decide), hw]
  have hnil : l ≠ [] := by intro e; rw [e] at hw; simp [words, pieces] at hw
  have hd0 : (l ++ [10]).dropWhile white = l ++ [10] := by
    cases l with
    | nil => exact absurd rfl hnil
    | cons c l => rw [List.cons_append, List.dropWhile_cons_of_neg (by simp [hl c rfl])]
  rcases split_word (l ++ [10]) with ⟨h1, _⟩ | ⟨w, q, h1, h2, h3, h4, h5, _⟩
  · rw [hd0] at h1; simp at h1
  · rw [hd0] at h1
    rw [hw'] at h5
    obtain ⟨rfl, hq⟩ := List.cons.inj h5
    rcases split_word q with ⟨k1, k2⟩ | ⟨w2, r, k1, k2, k3, k4, k5, _⟩
    · rw [k2] at hq; cases hq
    · rw [k5] at hq
      obtain ⟨rfl, hr⟩ := List.cons.inj hq
      have hq2 : q = q.takeWhile white ++ (pp ++ r) := by
        rw [← k1]; exact (List.takeWhile_append_dropWhile).symm
      refine ⟨r, ⟨⟨q.takeWhile white, ?_, h2, h3, ?_, takeWhile_all white q, ?_, k4, hr.symm⟩⟩⟩
      · rw [h1, hq2, hpp]
        have : (q.takeWhile white ++ (ds ++ 47 :: p ++ r)).takeWhile white = q.takeWhile white := by
          rw [← hpp, ← hq2]
        rw [this]
        simp
      · cases q with
        | nil => simp at k1; exact absurd k1.1 k2
        | cons c q => rw [List.takeWhile_cons_of_pos (h4 c rfl)]; simp
      · intro c hc
        exact k3 c (by rw [hpp]; simp [hc])

/-- What the code makes of an entry for the protocol number `proto`. -/
def servOf (proto : Int) (name : List Nat) (port : Nat) (p : List Nat) : List Serv :=
  if p = udp then (if proto = 6 then [] else [⟨port, 17, 2, some name⟩])
  else if p = tcp then (if proto = 17 then [] else [⟨port, 6, 1, some name⟩]) else []

theorem entry_eq (line n pp ds p : List Nat) (as : List (List Nat)) (hw : words (line.takeWhile (· ≠ 35)) = n :: pp :: as)
    (hpp : pp = ds ++ 47 :: p) (hd : ∀ c ∈ ds, 48 ≤ c ∧ c ≤ 57) : entry line = some ⟨n, num ds, p, as⟩ := by
  have ht : pp.takeWhile (· ≠ 47) = ds := by
    rw [hpp]
    apply takeWhile_split
    · intro c hc
      have := hd c hc
      simp
      omega
    · intro c hc
      simp at hc
      simp [← hc]
  unfold entry
  rw [hw]
  simp only [ht]
  rw [show pp.drop (ds.length + 1) = p from by rw [hpp]; simp]
  rfl

theorem byNameLine_blank (name : List Nat) (proto : Int) (line : List Nat) (hne : name ≠ []) (hw : ∀ c ∈ name, white c = false)
    (h : words (line.takeWhile (· ≠ 35)) = []) : byNameLine name proto (line ++ [10]) = .ok [] := by
  unfold byNameLine
  simp only [cutComment_eq]
  rw [if_neg]
  rw [findName_iff name hne hw]
  simp only [if_true]
  rw [words_append _ _ (by decide), h]
  simp

theorem port_ok (v a : Nat) (hv : v ≤ 65535) (ha : 0 < a) : ¬ ((v : Int) > 65535 ∨ a = 0) := by omega

theorem addServ_eq (name : List Nat) (proto : Int) (a p r : List Nat) (v : Nat) (hv : v ≤ 65535) (ha : 0 < a.length)
    (hp : p = tcp ∨ p = udp ∨ (¬ tcp <+: p ∧ ¬ udp <+: p)) (hr : ∀ c, r.head? = some c → white c = true) :
    addServ name proto (a ++ (47 :: p ++ r)) v a.length = servOf proto name v p := by
  have hb := port_ok v a.length hv ha
  unfold addServ servOf
  rw [toI32_small v hv, if_neg hb, List.drop_left, parseRest_eq p r proto hp hr]
  by_cases h1 : p = udp
  · rw [if_pos h1, if_pos h1]
    by_cases h2 : proto = 6
    · rw [if_pos h2, if_pos h2]
    · rw [if_neg h2, if_neg h2]
  · rw [if_neg h1, if_neg h1]
    by_cases h2 : p = tcp
    · rw [if_pos h2, if_pos h2]
      by_cases h3 : proto = 17
      · rw [if_pos h3, if_pos h3]
      · rw [if_neg h3, if_neg h3]
    · rw [if_neg h2, if_neg h2]

theorem byNameLine_entry (name : List Nat) (proto : Int) (line n pp ds p : List Nat) (as : List (List Nat)) (hne : name ≠ [])
    (hw : ∀ c ∈ name, white c = false) (hs : 47 ∉ name) (h0 : 0 ∉ line) (hh : ∀ c, line.head? = some c → white c = false)
    (hl : words (line.takeWhile (· ≠ 35)) = n :: pp :: as) (hpp : pp = ds ++ 47 :: p) (hds : ds ≠ []) (hd : ∀ c ∈ ds, 48 ≤ c ∧ c ≤ 57)
    (hv : num ds ≤ 65535) (hp : p = tcp ∨ p = udp ∨ (¬ tcp <+: p ∧ ¬ udp <+: p)) :
    byNameLine name proto (line ++ [10]) = .ok (if n = name ∨ name ∈ as then servOf proto name (num ds) p else []) := by
  have hmem : name ∈ words (line.takeWhile (· ≠ 35) ++ [10]) ↔ (n = name ∨ name ∈ as) := by
    rw [words_append _ _ (by decide), hl]
    simp only [List.mem_cons]
    constructor
    · rintro (h | h | h)
      · exact Or.inl h.symm
      · exact absurd (by rw [h, hpp]; simp) hs
      · exact Or.inr h
    · rintro (h | h)
      · exact Or.inl h.symm
      · exact Or.inr (Or.inr h)
  unfold byNameLine
  simp only [cutComment_eq]
  by_cases hm : n = name ∨ name ∈ as
  · rw [if_pos ((findName_iff name hne hw _ true).2 (by rw [if_pos rfl]; exact hmem.2 hm)), if_pos hm]
    have hh' : ∀ c, (line.takeWhile (· ≠ 35)).head? = some c → white c = false := by
      intro c hc
      cases line with
      | nil => simp at hc
      | cons d line =>
        by_cases hd : d = 35
        · rw [List.takeWhile_cons_of_neg (by simp [hd])] at hc; simp at hc
        · rw [List.takeWhile_cons_of_pos (by simp [hd])] at hc
          simp at hc; subst hc; exact hh d rfl
    obtain ⟨r, ⟨sh⟩⟩ := shape_of _ n pp ds p as hh' hl hpp
    have hr0 : 0 ∉ line.takeWhile (· ≠ 35) ++ [10] := by
      simp only [List.mem_append, List.mem_singleton, not_or]
      exact ⟨fun h => h0 ((List.takeWhile_prefix _).subset h), by decide⟩
    rw [space_eq, sh.eq, (takeWhile_name n _ sh.n_white ?_).2]
    · rw [strtoul_digits sh.gap ds (47 :: p ++ r) [] sh.gap_white hds hd ?_ hv ?_]
      · show Res.ok (addServ _ _ _ _ _) = _
        rw [show sh.gap ++ (ds ++ (47 :: p ++ r)) = (sh.gap ++ ds) ++ (47 :: p ++ r) from by simp,
          show sh.gap.length + ds.length = (sh.gap ++ ds).length from by simp,
          addServ_eq name proto _ p r _ hv (by have := List.length_pos_iff.2 sh.gap_ne; simp; omega) hp sh.r_white]
      · intro c hc
        simp at hc
        omega
      · intro h
        apply hr0
        rw [sh.eq]
        exact List.mem_append_right _ h
    · intro c hc
      have := sh.gap_ne
      cases hg : sh.gap with
      | nil => exact absurd hg this
      | cons g gap =>
        rw [hg] at hc
        simp at hc
        subst hc
        exact sh.gap_white g (by rw [hg]; simp)
  · rw [if_neg (fun h => hm (hmem.1 (by simpa using (findName_iff name hne hw _ true).1 h))), if_neg hm]

/-- What a line adds to the result, by the specification. -/
def wanted (proto : Int) (name : List Nat) (line : List Nat) : List Serv :=
  match entry line with
  | none => []
  | some e => if e.name = name ∨ name ∈ e.aliases then servOf proto name e.port e.proto else []

theorem byNameLine_good (name : List Nat) (proto : Int) (line : List Nat) (hne : name ≠ [])
    (hw : ∀ c ∈ name, white c = false) (hs : 47 ∉ name) (hg : GoodLine line) :
    byNameLine name proto (line ++ [10]) = .ok (wanted proto name line) := by
  obtain ⟨_, h0, _, hg⟩ := hg
  rcases hg with hg | ⟨hh, n, pp, as, hl, ds, p, hpp, hds, hd, hv, hp⟩
  · rw [byNameLine_blank name proto line hne hw hg]
    unfold wanted entry
    rw [hg]
  · rw [byNameLine_entry name proto line n pp ds p as hne hw hs h0 hh hl hpp hds hd hv hp]
    unfold wanted
    rw [entry_eq line n pp ds p as hl hpp hd]

theorem byNameLines_good (name : List Nat) (proto : Int) (ls : List (List Nat)) (hne : name ≠ [])
    (hw : ∀ c ∈ name, white c = false) (hs : 47 ∉ name) (hg : ∀ l ∈ ls, GoodLine l) :
    byNameLines name proto (ls.map (fun l => l ++ [10])) = .ok (ls.flatMap (wanted proto name)) := by
  induction ls with
  | nil => rfl
  | cons l ls ih =>
    rw [List.map_cons, byNameLines, byNameLine_good name proto l hne hw hs (hg l (by simp)), ih (fun x hx => hg x (by simp [hx]))]
    rfl

theorem fgetsLines_good (ls : List (List Nat)) (hg : ∀ l ∈ ls, GoodLine l) : fgetsLines (Db.file ls) = ls.map (fun l => l ++ [10]) := by
  unfold fgetsLines
  rw [Db.reads_file 127 ls (fun l hl => ⟨(hg l hl).1, (hg l hl).2.2.1⟩) _ (Nat.le_refl _), List.map_map]
  apply List.map_congr_left
  intro l hl
  apply Strtol.takeWhile_all
  intro c hc
  simp only [List.mem_append, List.mem_singleton] at hc
  have := (hg l hl).2.1
  simp
  rintro rfl
  rcases hc with hc | hc
  · exact this hc
  · simp at hc

theorem wanted_cases (proto : Option (List Nat)) (hp : proto = none ∨ proto = some tcp ∨ proto = some udp) (name line : List Nat) :
    (wanted (iproto proto) name line = [] ∧ ∀ e, entry line = some e → serves name proto e = false) ∨
    ∃ e s, entry line = some e ∧ serves name proto e = true ∧ wanted (iproto proto) name line = [s] ∧
      (e.port ≤ 65535 → servent proto s = .ok (some ⟨name, e.port, e.proto⟩)) := by
  unfold wanted
  cases he : entry line with
  | none => left; simp
  | some e =>
    have hport : e.port ≤ 65535 → ((e.port : Int) % 65536).toNat = e.port := by omega
    by_cases hn : e.name = name ∨ name ∈ e.aliases
    · have hn' : (e.name == name || e.aliases.contains name) = true := by simpa using hn
      simp only [if_pos hn]
      unfold servOf
      have hsv : serves name proto e = ((e.proto == tcp || e.proto == udp) && (proto == none || proto == some e.proto)) := by
        unfold serves; rw [hn']; simp
      by_cases h1 : e.proto = udp
      · rcases hp with rfl | rfl | rfl
        · right
          refine ⟨e, ⟨e.port, 17, 2, some name⟩, rfl, by rw [hsv, h1]; decide, by rw [if_pos h1, if_neg (by decide)], ?_⟩
          intro hh
          simp [servent, hport hh, h1, udp]
        · left
          refine ⟨by rw [if_pos h1, if_pos (by decide)], ?_⟩
          rintro e' ⟨⟩
          rw [hsv, h1]; decide
        · right
          refine ⟨e, ⟨e.port, 17, 2, some name⟩, rfl, by rw [hsv, h1]; decide, by rw [if_pos h1, if_neg (by decide)], ?_⟩
          intro hh
          simp [servent, hport hh, h1]
      · by_cases h2 : e.proto = tcp
        · rcases hp with rfl | rfl | rfl
          · right
            refine ⟨e, ⟨e.port, 6, 1, some name⟩, rfl, by rw [hsv, h2]; decide, by rw [if_neg h1, if_pos h2, if_neg (by decide)], ?_⟩
            intro hh
            simp [servent, hport hh, h2, tcp]
          · right
            refine ⟨e, ⟨e.port, 6, 1, some name⟩, rfl, by rw [hsv, h2]; decide, by rw [if_neg h1, if_pos h2, if_neg (by decide)], ?_⟩
            intro hh
            simp [servent, hport hh, h2]
          · left
            refine ⟨by rw [if_neg h1, if_pos h2, if_pos (by decide)], ?_⟩
            rintro e' ⟨⟩
            rw [hsv, h2]; decide
        · left
          refine ⟨by rw [if_neg h1, if_neg h2], ?_⟩
          rintro e' ⟨⟩
          rw [hsv]; simp [h1, h2]
    · left
      refine ⟨by simp only [if_neg hn], ?_⟩
      rintro e' ⟨⟩
      unfold serves
      rw [show (e.name == name || e.aliases.contains name) = false from by simpa using hn]
      simp

/-- NULL, or the entry for the first element. -/
def first (proto : Option (List Nat)) : List Serv → Res (Option Servent)
  | [] => .ok none
  | s :: _ => servent proto s

theorem good_port (line : List Nat) (hg : GoodLine line) (e : Entry) (he : entry line = some e) : e.port ≤ 65535 := by
  obtain ⟨_, h0, _, hg⟩ := hg
  rcases hg with hg | ⟨hh, n, pp, as, hl, ds, p, hpp, hds, hd, hv, hp⟩
  · unfold entry at he
    rw [hg] at he
    cases he
  · rw [entry_eq line n pp ds p as hl hpp hd] at he
    cases he
    exact hv

theorem first_wanted (proto : Option (List Nat)) (hp : proto = none ∨ proto = some tcp ∨ proto = some udp) (name : List Nat)
    (ls : List (List Nat)) (hg : ∀ l ∈ ls, GoodLine l) :
    first proto (ls.flatMap (wanted (iproto proto) name)) =
      .ok (((ls.filterMap entry).find? (serves name proto)).map (fun e => ⟨name, e.port, e.proto⟩)) := by
  induction ls with
  | nil => rfl
  | cons l ls ih =>
    rw [List.flatMap_cons]
    rcases wanted_cases proto hp name l with ⟨h1, h2⟩ | ⟨e, s, h1, h2, h3, h4⟩
    · rw [h1, List.nil_append, ih (fun x hx => hg x (by simp [hx]))]
      cases he : entry l with
      | none => rw [List.filterMap_cons_none he]
      | some e => rw [List.filterMap_cons_some he, List.find?_cons_of_neg (by simp [h2 e he])]
    · rw [h3, List.filterMap_cons_some h1, List.find?_cons_of_pos h2]
      exact h4 (good_port l (hg l (by simp)) e h1)

theorem not_numeric (s : List Nat) (hne : s ≠ []) (hw : ∀ c ∈ s, white c = false) (h0 : 0 ∉ s) (hn : ¬ Numeric s) :
    ∃ v e, strtoul (s ++ [0]) = .ok (v, e) ∧ s.drop e ≠ [] := by
  rw [strtoul_spec s [] h0]
  cases hp : Strtol.Spec.parse white 10 s with
  | none => exact ⟨0, 0, rfl, by simpa using hne⟩
  | some r =>
    obtain ⟨n, neg, mag⟩ := r
    refine ⟨_, n, rfl, ?_⟩
    intro hd
    apply hn
    have hws : s.takeWhile white = [] := by
      cases s with
      | nil => rfl
      | cons c s => rw [List.takeWhile_cons_of_neg (by simp [hw c (by simp)])]
    unfold Strtol.Spec.parse at hp
    simp only [hws, List.length_nil, List.drop_zero, base10, Nat.zero_add, Nat.add_zero] at hp
    generalize hk : (if s.head? = some 45 ∨ s.head? = some 43 then 1 else 0) = k at hp
    by_cases hds : (s.drop k).takeWhile (Strtol.Spec.isDigitIn 10) = []
    · rw [if_pos hds] at hp; cases hp
    · rw [if_neg hds] at hp
      have hn' : n = k + ((s.drop k).takeWhile (Strtol.Spec.isDigitIn 10)).length := by
        have := congrArg (fun x => x.map (·.1)) hp
        simpa using this.symm
      have hle := List.drop_eq_nil_iff.1 hd
      have hpre := List.takeWhile_prefix (l := s.drop k) (Strtol.Spec.isDigitIn 10)
      have hall : (s.drop k).takeWhile (Strtol.Spec.isDigitIn 10) = s.drop k := by
        apply hpre.eq_of_length_le
        rw [List.length_drop]
        omega
      refine ⟨s.take k, s.drop k, (List.take_append_drop k s).symm, ?_, ?_, ?_⟩
      · cases s with
        | nil => exact absurd rfl hne
        | cons c s =>
          by_cases hc : c = 45 ∨ c = 43
          · simp only [List.head?_cons, Option.some.injEq, hc, if_true] at hk
            subst hk
            rcases hc with rfl | rfl <;> simp
          · simp only [List.head?_cons, Option.some.injEq, hc, if_false] at hk
            subst hk
            simp
      · rw [← hall]; exact hds
      · intro c hc
        rw [← hall] at hc
        exact (isDigitIn_iff c).1 (takeWhile_all _ _ c hc)

/-- **C84 (getservbyname).** In a file of well-formed lines, for every name that is a word without slash and not a number, and for the
protocol tcp, udp or none at all, the answer has the port and the protocol of the first entry for this name or alias and this
protocol; if there is none, it is NULL. Missing: entries of other protocols than tcp and udp are not found, even without a protocol
(`other_proto_violated`); the official name and the aliases of the entry are not given (`alias_violated`); names that are numbers
(`numeric_violated`); entries that do not begin in the first column, and lines from 127 characters on (`long_line_violated`); numbers beyond 65535
(`big_port_violated`); protocols beginning with tcp or udp (`udplite_violated`). -/
theorem getservbyname_partial (ls : List (List Nat)) (hg : ∀ l ∈ ls, GoodLine l) (name : List Nat) (hne : name ≠ [])
    (hw : ∀ c ∈ name, white c = false) (hs : 47 ∉ name) (h0 : 0 ∉ name) (hn : ¬ Numeric name)
    (proto : Option (List Nat)) (hp : proto = none ∨ proto = some tcp ∨ proto = some udp) :
    getservbyname (some (Db.file ls)) name proto =
      .ok (((ls.filterMap entry).find? (serves name proto)).map (fun e => ⟨name, e.port, e.proto⟩)) := by
  obtain ⟨v, e, h1, h2⟩ := not_numeric name hne hw h0 hn
  have hl : lookupByName (some (Db.file ls)) (some name) (iproto proto) 0 false =
      .ok (.found (ls.flatMap (wanted (iproto proto) name))) := by
    unfold lookupByName
    simp only [show ¬ ((0 : Int) = 1) from by decide, show ¬ ((0 : Int) = 2) from by decide, if_false, if_true]
    cases name with
    | nil => exact absurd rfl hne
    | cons c name =>
      simp only [h1, Res.bind]
      rw [if_neg h2]
      simp only [Bool.false_eq_true, if_false, fileName]
      rw [fgetsLines_good ls hg, byNameLines_good _ _ ls hne hw hs hg]
      rfl
  unfold getservbyname
  rw [hl]
  simp only [Res.bind]
  rw [← first_wanted proto hp name ls hg]
  cases ls.flatMap (wanted (iproto proto) name) with
  | nil => rfl
  | cons s l => rfl

end Mlibc.Services
