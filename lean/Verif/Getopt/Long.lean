import Verif.Getopt.Props
/-
getopt_long: options/internal/generic/getopt.cpp in mode `GetoptMode::Long` (options/glibc/generic/getopt.cpp L5-7). The short options are
those of `Getopt/Model`. Not modelled: option strings with `W;` (the model panics), mode LongOnly, the messages on stderr. Property C79.
-/
namespace Mlibc.Getopt.Long
open Mlibc Mlibc.Getopt

/-! ### Model -/

/-- `struct option`: `hasArg` is no_argument (0), required_argument (1) or optional_argument (2); `flag` names the variable it points to.
options/glibc/include/bits/getopt.h L13-18 -/
structure LongOpt where
  name : Str
  hasArg : Nat
  flag : Option Nat
  val : Int
  deriving DecidableEq, Repr

/-- The state of getopt, what `longindex` points to, and the assignments made through `flag`. -/
structure LState where
  base : State
  longindex : Option Nat := none
  writes : List (Nat × Int) := []
  deriving DecidableEq, Repr

/-- One pass of `longopt_find`: the only option that fits, none, or more than one. getopt.cpp L34-47, L52-63 -/
inductive Found where
  | none | one (k : Nat) | many
  deriving DecidableEq, Repr

def pass (fits : LongOpt → Bool) : List LongOpt → Nat → Option Nat → Found
  | [], _, none => .none
  | [], _, some i => .one i
  | o :: os, k, i => if ¬ fits o then pass fits os (k + 1) i
    else match i with
      | some _ => .many
      | none => pass fits os (k + 1) (some k)

/-- `strncmp(arg, name, n) == 0` -/
def sameFirst (arg name : Str) (n : Nat) : Bool := arg.take n = name.take n

/-- `longopt_find`; `name[n]` is the terminating zero exactly if the name has `n` characters. getopt.cpp L28-70 -/
def longFind (opts : List LongOpt) (arg : Str) (n : Nat) : Found :=
  match pass (fun o => sameFirst arg o.name n && o.name.length == n) opts 0 none with
  | .one k => .one k
  | .many => .many
  | .none => pass (fun o => sameFirst arg o.name n) opts 0 none

/-- `longopt_consume`; `s` is what follows the `=`. `none`: go on. getopt.cpp L72-127 -/
def longConsume (o : LongOpt) (s : Option Str) (colon : Bool) (st : State) : Res (Option Int × State) :=
  if o.hasArg = 1 then
    match s with
    | some a => .ok (none, { st with optarg := some a, optind := st.optind + 1 })
    | none => match st.argv[st.optind + 1]? with
      | some a => .ok (none, { st with optarg := some a, optind := st.optind + 2 })
      | none => .ok (some (if colon then 58 else question), { st with optopt := UInt8.ofNat (o.val % 256).toNat, optind := st.optind + 1 })
  else if o.hasArg = 2 then
    .ok (none, { st with optarg := s, optind := st.optind + 1 })
  else if o.hasArg = 0 then
    -- `strlen(s)` counts the `=`
    match s with
    | some _ => .ok (some (if colon then 58 else question), { st with optind := st.optind + 1 })
    | none => .ok (none, { st with optarg := none, optind := st.optind + 1 })
  else .panic

/-- A word that begins with `--`; `arg` is what follows. getopt.cpp L182-209 -/
def longWord (opts : List LongOpt) (colon : Bool) (ls : LState) (arg : Str) : Res (Int × LState) :=
  let n := arg.findIdx (· = 61)
  let s := if n < arg.length then some (arg.drop (n + 1)) else none
  match longFind opts arg n with
  | .none => .ok (question, { ls with base := { ls.base with optind := ls.base.optind + 1 } })
  | .many => .ok (question, { ls with base := { ls.base with optind := ls.base.optind + 1 } })
  | .one k => match opts[k]? with
    | none => .ub
    | some o => (longConsume o s colon ls.base).bind fun r =>
      let ls := { ls with base := r.2, longindex := some k }
      match r.1 with
      | some e => .ok (e, ls)
      | none => match o.flag with
        | none => .ok (o.val, ls)
        | some v => .ok (0, { ls with writes := ls.writes ++ [(v, o.val)] })

/-- The main loop. getopt.cpp L149-325 -/
def mainLoop (opts : List LongOpt) (optstring : Str) (stopAtFirst : Bool) : Nat → LState → Res (Int × LState)
  | 0, _ => .ub
  | fuel + 1, ls =>
    let st := ls.base
    match st.argv[st.optind]? with
    | none => .ok (-1, { ls with base := { st with optarg := none } })
    | some arg =>
      if ¬ isOptionArg arg then
        if arg = [dash, dash] then .ok (-1, { ls with base := { st with optind := st.optind + 1 } })
        else if stopAtFirst then .ok (-1, { ls with base := { st with optarg := none } })
        else
          match (st.argv.drop st.optind).findIdx? isOptionArg with
          | some k => mainLoop opts optstring stopAtFirst fuel { ls with base := { st with optind := st.optind + k } }
          | none => .ok (-1, { ls with base := { st with optarg := none } })
      else if arg[1]? = some dash then longWord opts (optstring.head? = some colonC) ls (arg.drop 2)
      else (shortOpt optstring st arg).bind fun r => .ok (r.1, { ls with base := r.2 })

/-- `w_long_options`: the first `W` is followed by `;`. getopt.cpp L133-141 -/
def wLong (optstring : Str) : Bool := (optstring.dropWhile (· ≠ 87))[1]? = some 59

/-- `getopt_long`. getopt.cpp L345-391. With `W;` not modelled. -/
def getoptLong (posix : Bool) (opts : List LongOpt) (optstring : Str) (ls : LState) : Res (Int × LState) :=
  if wLong optstring then .panic else
  let st := ls.base
  let st := if st.optind = 0 then { st with optarg := none, optind := 1, optopt := 0, optpos := 1 } else st
  let skipped := st.optind
  let stop := optstring.head? = some plus ∨ posix
  let k? := (st.argv.drop st.optind).findIdx? looksLikeOption
  let permuting := optstring.head? ≠ some plus ∧ optstring.head? ≠ some dash
  if permuting ∧ k? = none then
    .ok (-1, { ls with base := { st with optarg := none } })
  else
    let st := if permuting then { st with optind := st.optind + k?.getD 0 } else st
    let resumed := st.optind
    (mainLoop opts optstring stop 2 { ls with base := st }).bind fun r =>
    let st := r.2.base
    if resumed > skipped then
      (permuteLoop skipped (st.optind - 1) (st.optind - resumed) st.argv).bind fun argv =>
      .ok (r.1, { r.2 with base := { st with argv := argv, optind := skipped + (st.optind - resumed) } })
    else .ok (r.1, r.2)

/-- What a program sees after one call: also `longindex` and the assignments up to then. -/
structure LEvent where
  ev : Event
  longindex : Option Nat
  writes : List (Nat × Int)
  deriving DecidableEq, Repr

/-- Calls until -1 is returned; `longindex` is the program's variable, here cleared before every call. -/
def run (posix : Bool) (opts : List LongOpt) (optstring : Str) : Nat → LState → Res (List LEvent × LState)
  | 0, _ => .ub
  | n + 1, ls =>
    (getoptLong posix opts optstring { ls with longindex := none }).bind fun r =>
    if r.1 = -1 then .ok ([], r.2)
    else (run posix opts optstring n r.2).bind fun q =>
      .ok (⟨⟨r.1, r.2.base.optarg, r.2.base.optopt⟩, r.2.longindex, r.2.writes⟩ :: q.1, q.2)

/-! ### Specification -/
namespace Spec

/-- What a typed name stands for: an option of exactly this name, if only one has it, or, if none has it, the only option whose name
begins like that. -/
def Means (opts : List LongOpt) (typed : Str) (k : Nat) (o : LongOpt) : Prop :=
  opts[k]? = some o ∧
  ((o.name = typed ∧ ∀ j o', opts[j]? = some o' → o'.name = typed → j = k) ∨
   ((∀ o' ∈ opts, o'.name ≠ typed) ∧ typed <+: o.name ∧ ∀ j o', opts[j]? = some o' → typed <+: o'.name → j = k))

/-- It stands for nothing: no name begins like that. -/
def Unknown (opts : List LongOpt) (typed : Str) : Prop := ∀ o ∈ opts, ¬ typed <+: o.name

/-- It could stand for several. -/
def Ambiguous (opts : List LongOpt) (typed : Str) : Prop :=
  (∀ o ∈ opts, o.name ≠ typed) ∧ ∃ (i j : Nat) (o o' : LongOpt), i ≠ j ∧ opts[i]? = some o ∧ opts[j]? = some o' ∧ typed <+: o.name ∧ typed <+: o'.name

/-- The ways to give an option. -/
inductive LItem where
  | short (it : Item)
  | plain (typed : Str) (k : Nat)                 -- --name
  | joined (typed : Str) (k : Nat) (arg : Str)    -- --name=arg
  | separate (typed : Str) (k : Nat) (arg : Str)  -- --name arg
  | wrong (typed : Str)                           -- --name, unknown or ambiguous
  | wrongArg (typed : Str) (k : Nat) (arg : Str)  -- --name=arg for an option without argument

def LItem.words : LItem → List Str
  | .short it => it.words
  | .plain t _ => ['-'.toUInt8 :: '-'.toUInt8 :: t]
  | .joined t _ a => ['-'.toUInt8 :: '-'.toUInt8 :: (t ++ '='.toUInt8 :: a)]
  | .separate t _ a => ['-'.toUInt8 :: '-'.toUInt8 :: t, a]
  | .wrong t => ['-'.toUInt8 :: '-'.toUInt8 :: t]
  | .wrongArg t _ a => ['-'.toUInt8 :: '-'.toUInt8 :: (t ++ '='.toUInt8 :: a)]

/-- A name as it can be typed. -/
def Typed (t : Str) : Prop := t ≠ [] ∧ '='.toUInt8 ∉ t

/-- An option whose value a program can tell from the end of the options. -/
def Usable (o : LongOpt) : Prop := o.flag ≠ none ∨ o.val ≠ -1

def LItem.Valid (opts : List LongOpt) (optstring : Str) : LItem → Prop
  | .short it => it.Valid optstring
  | .plain t k => Typed t ∧ ∃ o, Means opts t k o ∧ Usable o ∧ (o.hasArg = 0 ∨ o.hasArg = 2)
  | .joined t k _ => Typed t ∧ ∃ o, Means opts t k o ∧ Usable o ∧ (o.hasArg = 1 ∨ o.hasArg = 2)
  | .separate t k _ => Typed t ∧ ∃ o, Means opts t k o ∧ Usable o ∧ o.hasArg = 1
  | .wrong t => Typed t ∧ (Unknown opts t ∨ Ambiguous opts t)
  | .wrongArg t k _ => Typed t ∧ ∃ o, Means opts t k o ∧ o.hasArg = 0

/-- The assignment of an option. -/
def assign (opts : List LongOpt) (k : Nat) : List (Nat × Int) := match opts[k]? with
  | some ⟨_, _, some v, x⟩ => [(v, x)]
  | _ => []

/-- What an option does: it is returned, or assigned and 0 is returned; `longindex` is its number. -/
def Returned (opts : List LongOpt) (k : Nat) (arg : Option Str) (before : List (Nat × Int)) (e : LEvent) : Prop :=
  e.longindex = some k ∧ e.ev.optarg = arg ∧ e.writes = before ++ assign opts k ∧
  ∃ o, opts[k]? = some o ∧ e.ev.ret = if o.flag = none then o.val else 0

/-- The call that reports the item, and the assignments afterwards. -/
def LReports (opts : List LongOpt) (colon : Bool) (it : LItem) (before : List (Nat × Int)) (e : LEvent) : Prop :=
  match it with
  | .short it => Reports it e.ev ∧ e.writes = before
  | .plain _ k => Returned opts k none before e
  | .joined _ k a => Returned opts k (some a) before e
  | .separate _ k a => Returned opts k (some a) before e
  | .wrong _ => e.ev.ret = '?'.toNat ∧ e.writes = before
  | .wrongArg _ _ _ => e.ev.ret = (if colon then ':' else '?').toNat ∧ e.writes = before

/-- The calls report the litems in order. -/
inductive AllReported (opts : List LongOpt) (colon : Bool) : List LItem → List (Nat × Int) → List LEvent → Prop where
  | nil (w) : AllReported opts colon [] w []
  | cons {it its before e es} : LReports opts colon it before e → AllReported opts colon its e.writes es →
      AllReported opts colon (it :: its) before (e :: es)

/-- `W;` is not in the option string. -/
def NoW (optstring : Str) : Prop := ∀ a b, optstring ≠ a ++ 'W'.toUInt8 :: ';'.toUInt8 :: b

/-- A command line before `--`. -/
inductive LElem where
  | opt (it : LItem)
  | operand (w : Str)

def LElem.words : LElem → List Str
  | .opt it => it.words
  | .operand w => [w]

def LElem.Valid (opts : List LongOpt) (optstring : Str) : LElem → Prop
  | .opt it => it.Valid opts optstring
  | .operand w => Operand w

def litems : List LElem → List LItem
  | [] => []
  | .opt it :: es => it :: litems es
  | .operand _ :: es => litems es

def loperands : List LElem → List Str
  | [] => []
  | .opt _ :: es => loperands es
  | .operand w :: es => w :: loperands es

end Spec
open Spec

/-! ### Finding the option -/

theorem pass_spec (fits : LongOpt → Bool) (os : List LongOpt) (k : Nat) (i : Option Nat) :
    (pass fits os k i = .none ↔ i = none ∧ ∀ o ∈ os, fits o = false) ∧
    (∀ m, pass fits os k i = .one m ↔ (i = some m ∧ ∀ o ∈ os, fits o = false) ∨
      (i = none ∧ ∃ j o, m = k + j ∧ os[j]? = some o ∧ fits o = true ∧ ∀ j' o', os[j']? = some o' → fits o' = true → j' = j)) := by
  induction os generalizing k i with
  | nil => cases i <;> simp [pass]
  | cons o os ih =>
    simp only [pass]
    by_cases hf : fits o = true
    · rw [if_neg (by simpa using hf)]
      cases i with
      | some i =>
        refine ⟨by simp [hf], ?_⟩
        intro m
        simp [hf]
      | none =>
        simp only []
        have h := ih (k + 1) (some k)
        refine ⟨by rw [h.1]; simp [hf], ?_⟩
        intro m
        rw [h.2]
        simp only [Option.some.injEq, reduceCtorEq, false_and, or_false, true_and, false_or]
        constructor
        · rintro ⟨rfl, hall⟩
          refine ⟨0, o, rfl, rfl, hf, ?_⟩
          intro j' o' hj' hf'
          cases j' with
          | zero => rfl
          | succ j' =>
            simp at hj'
            rw [hall o' (List.mem_of_getElem? hj')] at hf'
            cases hf'
        · rintro ⟨j, o1, rfl, hj, hfo, huniq⟩
          have h0 := huniq 0 o rfl hf
          subst h0
          refine ⟨rfl, ?_⟩
          intro o' ho'
          obtain ⟨j', hj'⟩ := List.getElem?_of_mem ho'
          cases hfo' : fits o' with
          | false => rfl
          | true =>
            have := huniq (j' + 1) o' (by simpa using hj') hfo'
            omega
    · rw [if_pos (by simpa using hf)]
      have h := ih (k + 1) i
      have hf' : fits o = false := by simpa using hf
      refine ⟨by rw [h.1]; simp [hf'], ?_⟩
      intro m
      rw [h.2]
      constructor
      · rintro (⟨h1, h2⟩ | ⟨h1, j, o1, h2, h3, h4, h5⟩)
        · exact Or.inl ⟨h1, by simpa [hf'] using h2⟩
        · refine Or.inr ⟨h1, j + 1, o1, by omega, by simpa using h3, h4, ?_⟩
          intro j' o' hj' hfo'
          cases j' with
          | zero =>
            simp at hj'
            subst hj'
            rw [hf'] at hfo'
            cases hfo'
          | succ j' => rw [h5 j' o' (by simpa using hj') hfo']
      · rintro (⟨h1, h2⟩ | ⟨h1, j, o1, h2, h3, h4, h5⟩)
        · exact Or.inl ⟨h1, fun o ho => h2 o (by simp [ho])⟩
        · cases j with
          | zero =>
            simp at h3
            subst h3
            rw [hf'] at h4
            cases h4
          | succ j =>
            refine Or.inr ⟨h1, j, o1, by omega, by simpa using h3, h4, ?_⟩
            intro j' o' hj' hfo'
            have := h5 (j' + 1) o' (by simpa using hj') hfo'
            omega

theorem sameFirst_iff (t s name : Str) : sameFirst (t ++ s) name t.length = true ↔ t <+: name := by
  unfold sameFirst
  rw [decide_eq_true_eq, List.take_left]
  constructor
  · intro h; rw [h]; exact List.take_prefix _ _
  · rintro ⟨r, rfl⟩; rw [List.take_left]

theorem exact_iff (t s name : Str) : (sameFirst (t ++ s) name t.length && name.length == t.length) = true ↔ name = t := by
  rw [Bool.and_eq_true, sameFirst_iff, beq_iff_eq]
  constructor
  · rintro ⟨h1, h2⟩; exact (h1.eq_of_length h2.symm).symm
  · rintro rfl; exact ⟨List.prefix_refl _, rfl⟩

theorem longFind_means (opts : List LongOpt) (t s : Str) (k : Nat) (o : LongOpt) (h : Means opts t k o) : longFind opts (t ++ s) t.length = .one k := by
  obtain ⟨hk, h⟩ := h
  unfold longFind
  have e := pass_spec (fun o => sameFirst (t ++ s) o.name t.length && o.name.length == t.length) opts 0 none
  have p := pass_spec (fun o => sameFirst (t ++ s) o.name t.length) opts 0 none
  rcases h with ⟨h1, h2⟩ | ⟨h1, h2, h3⟩
  · have : pass (fun o => sameFirst (t ++ s) o.name t.length && o.name.length == t.length) opts 0 none = .one k := by
      rw [e.2]
      exact Or.inr ⟨rfl, k, o, by omega, hk, (exact_iff t s o.name).2 h1, fun j o' hj hf => h2 j o' hj ((exact_iff t s o'.name).1 hf)⟩
    rw [this]
  · have h0 : pass (fun o => sameFirst (t ++ s) o.name t.length && o.name.length == t.length) opts 0 none = .none := by
      rw [e.1]
      refine ⟨rfl, ?_⟩
      intro o' ho'
      rw [Bool.eq_false_iff]
      intro hf
      exact h1 o' ho' ((exact_iff t s o'.name).1 hf)
    rw [h0]
    simp only []
    rw [p.2]
    exact Or.inr ⟨rfl, k, o, by omega, hk, (sameFirst_iff t s o.name).2 h2, fun j o' hj hf => h3 j o' hj ((sameFirst_iff t s o'.name).1 hf)⟩

theorem longFind_wrong (opts : List LongOpt) (t s : Str) (h : Unknown opts t ∨ Ambiguous opts t) :
    longFind opts (t ++ s) t.length = .none ∨ longFind opts (t ++ s) t.length = .many := by
  have hne : ∀ k, longFind opts (t ++ s) t.length ≠ .one k := by
    intro k hk
    unfold longFind at hk
    have e := pass_spec (fun o => sameFirst (t ++ s) o.name t.length && o.name.length == t.length) opts 0 none
    have p := pass_spec (fun o => sameFirst (t ++ s) o.name t.length) opts 0 none
    have hno : ∀ o ∈ opts, o.name ≠ t := by
      rcases h with h | h
      · intro o ho he
        exact h o ho (by rw [he]; exact List.prefix_refl _)
      · exact h.1
    have h0 : pass (fun o => sameFirst (t ++ s) o.name t.length && o.name.length == t.length) opts 0 none = .none := by
      rw [e.1]
      refine ⟨rfl, ?_⟩
      intro o' ho'
      rw [Bool.eq_false_iff]
      intro hf
      exact hno o' ho' ((exact_iff t s o'.name).1 hf)
    rw [h0] at hk
    simp only [] at hk
    rw [p.2] at hk
    rcases hk with ⟨hk, _⟩ | ⟨_, j, o, _, hj, hf, hu⟩
    · cases hk
    · have hpre := (sameFirst_iff t s o.name).1 hf
      rcases h with h | ⟨_, a, b, oa, ob, hab, ha, hb, hpa, hpb⟩
      · exact h o (List.mem_of_getElem? hj) hpre
      · have h1 := hu a oa ha ((sameFirst_iff t s oa.name).2 hpa)
        have h2 := hu b ob hb ((sameFirst_iff t s ob.name).2 hpb)
        omega
  cases hc : longFind opts (t ++ s) t.length with
  | none => exact Or.inl rfl
  | many => exact Or.inr rfl
  | one k => exact absurd hc (hne k)

/-! ### One item -/

theorem noW_wLong (s : Str) (h : NoW s) : wLong s = false := by
  induction s with
  | nil => decide
  | cons c s ih =>
    have ih := ih (fun a b he => h (c :: a) b (by rw [he]; rfl))
    by_cases hc : c = 87
    · subst hc
      rw [Bool.eq_false_iff]
      intro hw
      simp [wLong] at hw
      cases s with
      | nil => simp at hw
      | cons d s =>
        simp at hw
        subst hw
        exact h [] s rfl
    · unfold wLong at ih ⊢
      rw [List.dropWhile_cons_of_pos (by simpa using hc)]
      exact ih

theorem findIdx_eq (t s : Str) (h : '='.toUInt8 ∉ t) (hs : s = [] ∨ s.head? = some 61) : (t ++ s).findIdx (· = 61) = t.length := by
  have h' : (61 : UInt8) ∉ t := h
  rw [List.findIdx_append]
  have ht : t.findIdx (· = 61) = t.length := by
    rw [List.findIdx_eq_length]
    intro x hx
    have : x ≠ 61 := by rintro rfl; exact h' hx
    simpa using this
  rw [ht, if_neg (by omega)]
  rcases hs with rfl | hs
  · simp
  · cases s with
    | nil => simp at hs
    | cons a s => simp at hs; subst hs; simp [List.findIdx_cons]

/-- The long word of an item. -/
theorem longWord_item (opts : List LongOpt) (optstring : Str) (it : LItem) (hv : it.Valid opts optstring) (hnot : ∀ i, it ≠ .short i)
    (front rest : List Str) (oa : Option Str) (oo : UInt8) (li : Option Nat) (ws : List (Nat × Int)) (colon : Bool) :
    ∃ arg tl, it.words = (dash :: dash :: arg) :: tl ∧ arg ≠ [] ∧
      ∃ oa' oo' r li' ws', longWord opts colon ⟨⟨front ++ it.words ++ rest, front.length, oa, oo, 1⟩, li, ws⟩ arg
        = .ok (r, ⟨⟨front ++ it.words ++ rest, front.length + it.words.length, oa', oo', 1⟩, li', ws'⟩) ∧
      r ≠ -1 ∧ LReports opts colon it ws ⟨⟨r, oa', oo'⟩, li', ws'⟩ := by
  cases it with
  | short i => exact absurd rfl (hnot i)
  | plain t k =>
    obtain ⟨⟨ht, heq⟩, o, hm, hu, ha⟩ := hv
    refine ⟨t, [], rfl, ht, ?_⟩
    have hi := findIdx_eq t [] heq (Or.inl rfl)
    have hf := longFind_means opts t [] k o hm
    rw [List.append_nil] at hi hf
    have hk := hm.1
    have hc : longConsume o none colon ⟨front ++ (LItem.plain t k).words ++ rest, front.length, oa, oo, 1⟩
        = .ok (none, ⟨front ++ (LItem.plain t k).words ++ rest, front.length + 1, none, oo, 1⟩) := by
      rcases ha with ha | ha <;> simp [longConsume, ha]
    unfold longWord
    simp only [hi, hf, hk, Nat.lt_irrefl, if_false, hc, Res.bind]
    cases hfl : o.flag with
    | none => exact ⟨none, oo, o.val, some k, ws, rfl, by rcases hu with hu | hu; exact absurd hfl hu; exact hu,
        rfl, rfl, by simp [assign, hk]; split <;> simp_all, o, hk, by simp [hfl]⟩
    | some v => exact ⟨none, oo, 0, some k, ws ++ [(v, o.val)], rfl, by decide, rfl, rfl,
        by obtain ⟨a, b, c, d⟩ := o; simp only at hfl; subst hfl; simp [assign, hk], o, hk, by simp [hfl]⟩
  | joined t k a =>
    obtain ⟨⟨ht, heq⟩, o, hm, hu, ha⟩ := hv
    refine ⟨t ++ 61 :: a, [], rfl, by simp, ?_⟩
    have hi := findIdx_eq t (61 :: a) heq (Or.inr rfl)
    have hf := longFind_means opts t (61 :: a) k o hm
    have hk := hm.1
    have hc : longConsume o (some a) colon ⟨front ++ (LItem.joined t k a).words ++ rest, front.length, oa, oo, 1⟩
        = .ok (none, ⟨front ++ (LItem.joined t k a).words ++ rest, front.length + 1, some a, oo, 1⟩) := by
      rcases ha with ha | ha <;> simp [longConsume, ha]
    have hs : (if t.length < (t ++ 61 :: a).length then some ((t ++ 61 :: a).drop (t.length + 1)) else none) = some a := by
      rw [if_pos (by simp)]
      rw [← List.drop_drop, List.drop_left]; rfl
    unfold longWord
    simp only [hi, hf, hk, hs, hc, Res.bind]
    cases hfl : o.flag with
    | none => exact ⟨some a, oo, o.val, some k, ws, rfl, by rcases hu with hu | hu; exact absurd hfl hu; exact hu,
        rfl, rfl, by simp [assign, hk]; split <;> simp_all, o, hk, by simp [hfl]⟩
    | some v => exact ⟨some a, oo, 0, some k, ws ++ [(v, o.val)], rfl, by decide, rfl, rfl,
        by obtain ⟨a, b, c, d⟩ := o; simp only at hfl; subst hfl; simp [assign, hk], o, hk, by simp [hfl]⟩
  | separate t k a =>
    obtain ⟨⟨ht, heq⟩, o, hm, hu, ha⟩ := hv
    refine ⟨t, [a], rfl, ht, ?_⟩
    have hi := findIdx_eq t [] heq (Or.inl rfl)
    have hf := longFind_means opts t [] k o hm
    rw [List.append_nil] at hi hf
    have hk := hm.1
    have hg : (front ++ (LItem.separate t k a).words ++ rest)[front.length + 1]? = some a := by
      rw [List.append_assoc, List.getElem?_append_right (by omega)]
      simp [LItem.words]
    have hc : longConsume o none colon ⟨front ++ (LItem.separate t k a).words ++ rest, front.length, oa, oo, 1⟩
        = .ok (none, ⟨front ++ (LItem.separate t k a).words ++ rest, front.length + 2, some a, oo, 1⟩) := by
      unfold longConsume
      simp only [ha, if_true, hg]
    unfold longWord
    simp only [hi, hf, hk, Nat.lt_irrefl, if_false, hc, Res.bind]
    cases hfl : o.flag with
    | none => exact ⟨some a, oo, o.val, some k, ws, rfl, by rcases hu with hu | hu; exact absurd hfl hu; exact hu,
        rfl, rfl, by simp [assign, hk]; split <;> simp_all, o, hk, by simp [hfl]⟩
    | some v => exact ⟨some a, oo, 0, some k, ws ++ [(v, o.val)], rfl, by decide, rfl, rfl,
        by obtain ⟨a, b, c, d⟩ := o; simp only at hfl; subst hfl; simp [assign, hk], o, hk, by simp [hfl]⟩
  | wrong t =>
    obtain ⟨⟨ht, heq⟩, hw⟩ := hv
    refine ⟨t, [], rfl, ht, ?_⟩
    have hi := findIdx_eq t [] heq (Or.inl rfl)
    have hf := longFind_wrong opts t [] hw
    rw [List.append_nil] at hi hf
    unfold longWord
    simp only [hi]
    refine ⟨oa, oo, question, li, ws, ?_, by decide, rfl, rfl⟩
    rcases hf with hf | hf <;> simp only [hf] <;> rfl
  | wrongArg t k a =>
    obtain ⟨⟨ht, heq⟩, o, hm, ha⟩ := hv
    refine ⟨t ++ 61 :: a, [], rfl, by simp, ?_⟩
    have hi := findIdx_eq t (61 :: a) heq (Or.inr rfl)
    have hf := longFind_means opts t (61 :: a) k o hm
    have hk := hm.1
    have hc : longConsume o (some a) colon ⟨front ++ (LItem.wrongArg t k a).words ++ rest, front.length, oa, oo, 1⟩
        = .ok (some (if colon then 58 else question), ⟨front ++ (LItem.wrongArg t k a).words ++ rest, front.length + 1, oa, oo, 1⟩) := by
      simp [longConsume, ha]
    have hs : (if t.length < (t ++ 61 :: a).length then some ((t ++ 61 :: a).drop (t.length + 1)) else none) = some a := by
      rw [if_pos (by simp)]
      rw [← List.drop_drop, List.drop_left]; rfl
    unfold longWord
    simp only [hi, hf, hk, hs, hc, Res.bind]
    refine ⟨oa, oo, _, some k, ws, rfl, by cases colon <;> decide, ?_, rfl⟩
    cases colon <;> rfl

/-- The main loop on an item. -/
theorem mainLoop_item (opts : List LongOpt) (optstring : Str) (stop : Bool) (it : LItem) (hv : it.Valid opts optstring)
    (front rest : List Str) (oa : Option Str) (oo : UInt8) (ws : List (Nat × Int)) :
    (∃ w tl, it.words = w :: tl ∧ looksLikeOption w = true) ∧
    ∃ oa' oo' r li' ws', mainLoop opts optstring stop 2 ⟨⟨front ++ it.words ++ rest, front.length, oa, oo, 1⟩, none, ws⟩
        = .ok (r, ⟨⟨front ++ it.words ++ rest, front.length + it.words.length, oa', oo', 1⟩, li', ws'⟩) ∧
      r ≠ -1 ∧ LReports opts (optstring.head? = some ':'.toUInt8) it ws ⟨⟨r, oa', oo'⟩, li', ws'⟩ := by
  by_cases hs : ∃ i, it = .short i
  · obtain ⟨i, rfl⟩ := hs
    obtain ⟨w, tl, hw, hl, ho⟩ := item_option_arg optstring i hv
    refine ⟨⟨w, tl, hw, hl⟩, ?_⟩
    obtain ⟨oa', oo', r, h1, h2, h3⟩ := shortOpt_item optstring i hv front rest oa oo w (by rw [hw]; rfl)
    refine ⟨oa', oo', r, none, ws, ?_, h2, h3, rfl⟩
    have hget : (front ++ i.words ++ rest)[front.length]? = some w := by
      rw [List.append_assoc, List.getElem?_append_right (by simp), hw]; simp
    have h1n : w[1]? ≠ some dash := by
      obtain ⟨w', ws', hw', t, rfl⟩ := item_first_word i
      rw [hw] at hw'
      simp at hw'
      rw [hw'.1]
      have : i.char ≠ dash := hv.2.2.1
      simpa using this
    rw [mainLoop]
    simp only [LItem.words, hget, ho, not_true_eq_false, if_false, h1n, h1, Res.bind]
  · have hn : ∀ i, it ≠ .short i := fun i hi => hs ⟨i, hi⟩
    obtain ⟨arg, tl, hw, hne, oa', oo', r, li', ws', h1, h2, h3⟩ :=
      longWord_item opts optstring it hv hn front rest oa oo none ws (optstring.head? = some ':'.toUInt8)
    have ho : isOptionArg (dash :: dash :: arg) = true := by simp [isOptionArg, hne]
    refine ⟨⟨_, tl, hw, by simp [looksLikeOption]⟩, oa', oo', r, li', ws', ?_, h2, h3⟩
    have hget : (front ++ it.words ++ rest)[front.length]? = some (dash :: dash :: arg) := by
      rw [List.append_assoc, List.getElem?_append_right (by simp), hw]; simp
    rw [mainLoop]
    simp only [hget, ho, not_true_eq_false, if_false, List.getElem?_cons_succ, List.getElem?_cons_zero, if_true, List.drop_succ_cons, List.drop_zero]
    exact h1

/-- One call finds the next item behind any number of operands. -/
theorem getopt_item (posix : Bool) (opts : List LongOpt) (optstring : Str) (hw : NoW optstring) (hp : Permuting optstring) (it : LItem)
    (hv : it.Valid opts optstring) (front P rest : List Str) (hf : front ≠ []) (hP : ∀ w ∈ P, Operand w) (oa : Option Str) (oo : UInt8)
    (ws : List (Nat × Int)) :
    ∃ oa' oo' r li' ws', getoptLong posix opts optstring ⟨⟨front ++ P ++ it.words ++ rest, front.length, oa, oo, 1⟩, none, ws⟩
        = .ok (r, ⟨⟨front ++ it.words ++ P ++ rest, front.length + it.words.length, oa', oo', 1⟩, li', ws'⟩) ∧
      r ≠ -1 ∧ LReports opts (optstring.head? = some ':'.toUInt8) it ws ⟨⟨r, oa', oo'⟩, li', ws'⟩ := by
  obtain ⟨⟨w, tl, hwd, hl⟩, oa', oo', r, li', ws', h1, h2, h3⟩ :=
    mainLoop_item opts optstring (optstring.head? = some plus ∨ posix) it hv (front ++ P) rest oa oo ws
  have hfl : front.length ≠ 0 := by simpa using hf
  have hdrop : (front ++ P ++ it.words ++ rest).drop front.length = P ++ w :: (tl ++ rest) := by
    rw [List.append_assoc, List.append_assoc, List.drop_append_of_le_length (Nat.le_refl _), List.drop_length, hwd]
    simp
  have hidx : ((front ++ P ++ it.words ++ rest).drop front.length).findIdx? looksLikeOption = some P.length := by
    rw [hdrop]; exact findIdx_operands P hP w hl _
  refine ⟨oa', oo', r, li', ws', ?_, h2, h3⟩
  have hpp : (optstring.head? ≠ some plus ∧ optstring.head? ≠ some dash) = True := eq_true hp
  unfold getoptLong
  simp only [noW_wLong optstring hw, Bool.false_eq_true, hfl, if_false, hidx, hpp, reduceCtorEq, and_false, if_true, Option.getD_some]
  rw [List.length_append] at h1
  rw [h1]
  simp only [Res.bind]
  have hsub : front.length + P.length + it.words.length - (front.length + P.length) = it.words.length := by omega
  by_cases hPe : P = []
  · subst hPe
    simp
  · have hPl : 0 < P.length := List.length_pos_iff.2 hPe
    rw [if_pos (by omega), hsub, permute_rotate it.words front P rest hPl]

theorem getopt_end (posix : Bool) (opts : List LongOpt) (optstring : Str) (hw : NoW optstring) (hp : Permuting optstring) (front P : List Str)
    (hf : front ≠ []) (hP : ∀ w ∈ P, Operand w) (oa : Option Str) (oo : UInt8) (ws : List (Nat × Int)) :
    getoptLong posix opts optstring ⟨⟨front ++ P, front.length, oa, oo, 1⟩, none, ws⟩
      = .ok (-1, ⟨⟨front ++ P, front.length, none, oo, 1⟩, none, ws⟩) := by
  have hfl : front.length ≠ 0 := by simpa using hf
  have hidx : ((front ++ P).drop front.length).findIdx? looksLikeOption = none := by
    rw [List.drop_append_of_le_length (Nat.le_refl _), List.drop_length]
    simpa using findIdx_no_option P hP
  have hpp : (optstring.head? ≠ some plus ∧ optstring.head? ≠ some dash) = True := eq_true hp
  unfold getoptLong
  simp only [noW_wLong optstring hw, Bool.false_eq_true, hfl, if_false, hidx, hpp, and_self, if_true]

theorem getopt_dashdash (posix : Bool) (opts : List LongOpt) (optstring : Str) (hw : NoW optstring) (hp : Permuting optstring)
    (front P rest : List Str) (hf : front ≠ []) (hP : ∀ w ∈ P, Operand w) (oa : Option Str) (oo : UInt8) (ws : List (Nat × Int)) :
    getoptLong posix opts optstring ⟨⟨front ++ P ++ [dash, dash] :: rest, front.length, oa, oo, 1⟩, none, ws⟩
      = .ok (-1, ⟨⟨front ++ [[dash, dash]] ++ P ++ rest, front.length + 1, oa, oo, 1⟩, none, ws⟩) := by
  have hfl : front.length ≠ 0 := by simpa using hf
  have hdrop : (front ++ P ++ [dash, dash] :: rest).drop front.length = P ++ [dash, dash] :: rest := by
    rw [List.append_assoc, List.drop_append_of_le_length (Nat.le_refl _), List.drop_length]; simp
  have hidx : ((front ++ P ++ [dash, dash] :: rest).drop front.length).findIdx? looksLikeOption = some P.length := by
    rw [hdrop]; exact findIdx_operands P hP _ (by decide) _
  have hget : (front ++ P ++ [dash, dash] :: rest)[front.length + P.length]? = some [dash, dash] := by
    rw [List.getElem?_append_right (by simp)]; simp
  have hpp : (optstring.head? ≠ some plus ∧ optstring.head? ≠ some dash) = True := eq_true hp
  unfold getoptLong
  simp only [noW_wLong optstring hw, hfl, if_false, hidx, hpp, reduceCtorEq, and_false, if_true, Option.getD_some, Bool.false_eq_true]
  rw [mainLoop]
  simp only [hget, show isOptionArg [dash, dash] = false by decide, Bool.false_eq_true, not_false_eq_true, if_true, Res.bind]
  have hsub : front.length + P.length + 1 - (front.length + P.length) = 1 := by omega
  by_cases hPe : P = []
  · subst hPe; simp
  · have hPl : 0 < P.length := List.length_pos_iff.2 hPe
    have := permute_rotate [[dash, dash]] front P rest hPl
    simp only [List.length_cons, List.length_nil, Nat.zero_add] at this
    rw [if_pos (by omega), hsub]
    have hl : front ++ P ++ [dash, dash] :: rest = front ++ P ++ [[dash, dash]] ++ rest := by simp
    rw [hl, this]

theorem run_main (posix : Bool) (opts : List LongOpt) (optstring : Str) (hw : NoW optstring) (hp : Permuting optstring) (es : List LElem) :
    ∀ (front P tail : List Str) (oa : Option Str) (oo : UInt8) (li : Option Nat) (ws : List (Nat × Int)) (n : Nat), front ≠ [] → (∀ w ∈ P, Operand w) →
      EndOfOptions tail → (∀ e ∈ es, e.Valid opts optstring) → (litems es).length < n →
      ∃ evs oa' oo' li' ws', run posix opts optstring n ⟨⟨front ++ P ++ es.flatMap LElem.words ++ tail, front.length, oa, oo, 1⟩, li, ws⟩
          = .ok (evs, ⟨⟨front ++ (litems es).flatMap LItem.words ++ tail.take 1 ++ P ++ loperands es ++ tail.drop 1,
              front.length + ((litems es).flatMap LItem.words).length + (tail.take 1).length, oa', oo', 1⟩, li', ws'⟩) ∧
        AllReported opts (optstring.head? = some ':'.toUInt8) (litems es) ws evs := by
  induction es with
  | nil =>
    intro front P tail oa oo li ws n hf hP ht hv hn
    cases n with
    | zero => simp at hn
    | succ n =>
      rcases ht with rfl | ⟨rest, rfl⟩
      · refine ⟨[], none, oo, none, ws, ?_, .nil _⟩
        have := getopt_end posix opts optstring hw hp front P hf hP oa oo ws
        simp [run, this, litems, loperands, Res.bind]
      · refine ⟨[], oa, oo, none, ws, ?_, .nil _⟩
        have := getopt_dashdash posix opts optstring hw hp front P rest hf hP oa oo ws
        simp only [List.append_assoc, List.flatMap_nil, List.append_nil, List.nil_append] at this ⊢
        simp [run, this, litems, loperands, Res.bind]
  | cons e es ih =>
    intro front P tail oa oo li ws n hf hP ht hv hn
    cases e with
    | operand w =>
      obtain ⟨evs, oa', oo', li', ws', h1, h2⟩ := ih front (P ++ [w]) tail oa oo li ws n hf (by
        intro x hx
        rcases List.mem_append.1 hx with hx | hx
        · exact hP x hx
        · rw [List.mem_singleton.1 hx]; exact hv (.operand w) (by simp)) ht (fun e he => hv e (by simp [he]))
        (by simpa [litems] using hn)
      refine ⟨evs, oa', oo', li', ws', ?_, h2⟩
      simp only [List.append_assoc, List.flatMap_cons, LElem.words, litems, loperands, List.cons_append,
        List.nil_append] at h1 ⊢
      exact h1
    | opt it =>
      cases n with
      | zero => simp at hn
      | succ n =>
        have hvi : it.Valid opts optstring := hv (.opt it) (by simp)
        obtain ⟨oa1, oo1, r, li1, ws1, g1, g2, g3⟩ := getopt_item posix opts optstring hw hp it hvi front P
          (es.flatMap LElem.words ++ tail) hf hP oa oo ws
        obtain ⟨evs, oa', oo', li', ws', h1, h2⟩ := ih (front ++ it.words) P tail oa1 oo1 li1 ws1 n (by simp [hf]) hP ht
          (fun e he => hv e (by simp [he])) (by simp [litems] at hn; exact hn)
        refine ⟨⟨⟨r, oa1, oo1⟩, li1, ws1⟩ :: evs, oa', oo', li', ws', ?_, .cons g3 h2⟩
        have hargv : front ++ P ++ (LElem.opt it :: es).flatMap LElem.words ++ tail
            = front ++ P ++ it.words ++ (es.flatMap LElem.words ++ tail) := by
          simp [LElem.words]
        rw [hargv, run]
        simp only [g1, Res.bind, g2, if_false]
        rw [List.length_append] at h1
        have hargv2 : front ++ it.words ++ P ++ (es.flatMap LElem.words ++ tail)
            = front ++ it.words ++ P ++ es.flatMap LElem.words ++ tail := by simp
        rw [hargv2, h1]
        simp only [litems, loperands, List.flatMap_cons, List.length_append, List.append_assoc]
        congr 5
        omega

/-- **C79, partial.** For every table of long options, every option string without `W;` in the default mode, and every command line of
options, short or long (by exact name or an unambiguous beginning, with the argument attached or in the next word), and operands in any
order, possibly followed by `--` and further words: repeated calls of getopt_long report exactly the options in order. A long option gives
its `val`, or assigns it and gives 0, with its argument and its index; a word that names no option, or several, gives `?`, and so does an
argument for an option that takes none (`:` if the option string begins with a colon). Then -1 is returned, `argv` holds the option words
in order, then the operands in order, then the words behind `--`, and `optind` is the index of the first operand. Missing: what
`getopt_permuting_partial` misses for short options; `W;`; getopt_long_only; two options of the same name. -/
theorem getopt_long_partial (posix : Bool) (opts : List LongOpt) (optstring prog : Str) (hw : NoW optstring) (hp : Permuting optstring)
    (es : List LElem) (tail : List Str) (ht : EndOfOptions tail) (hv : ∀ e ∈ es, e.Valid opts optstring) :
    ∃ evs fin, run posix opts optstring ((litems es).length + 1) { base := { argv := prog :: es.flatMap LElem.words ++ tail } }
        = .ok (evs, fin) ∧
      AllReported opts (optstring.head? = some ':'.toUInt8) (litems es) [] evs ∧
      fin.base.argv = prog :: ((litems es).flatMap LItem.words ++ tail.take 1) ++ (loperands es ++ tail.drop 1) ∧
      fin.base.optind = (prog :: ((litems es).flatMap LItem.words ++ tail.take 1)).length := by
  obtain ⟨evs, oa', oo', li', ws', h1, h2⟩ := run_main posix opts optstring hw hp es [prog] [] tail none 0 none [] ((litems es).length + 1)
    (by simp) (by simp) ht hv (by omega)
  refine ⟨evs, _, by simpa using h1, h2, by simp, by simp; omega⟩

/-- A required argument that is missing at the end of the line: `?`, or `:` if the option string begins with a colon, `optopt` is the
option's value (as a char in the model), and the next call ends. -/
theorem missing_argument (posix : Bool) (opts : List LongOpt) (optstring prog t : Str) (k : Nat) (o : LongOpt) (hw : NoW optstring)
    (hp : Permuting optstring) (ht : Typed t) (hm : Means opts t k o) (ha : o.hasArg = 1) :
    ∃ fin, run posix opts optstring 2 { base := { argv := [prog, '-'.toUInt8 :: '-'.toUInt8 :: t] } } =
      .ok ([⟨⟨(if optstring.head? = some ':'.toUInt8 then ':' else '?').toNat, none, UInt8.ofNat (o.val % 256).toNat⟩, some k, []⟩], fin) ∧
      fin.base.optind = 2 := by
  have hi := findIdx_eq t [] ht.2 (Or.inl rfl)
  have hf := longFind_means opts t [] k o hm
  rw [List.append_nil] at hi hf
  have hk := hm.1
  have ho : isOptionArg (45 :: 45 :: t) = true := by simp [isOptionArg, ht.1]
  have hpp : (optstring.head? ≠ some plus ∧ optstring.head? ≠ some dash) = True := eq_true hp
  have hidx : List.findIdx? looksLikeOption [45 :: 45 :: t] = some 0 := by simp [List.findIdx?_cons, looksLikeOption]
  have h1 : getoptLong posix opts optstring ⟨⟨[prog, 45 :: 45 :: t], 1, none, 0, 1⟩, none, []⟩ =
      .ok ((if optstring.head? = some ':'.toUInt8 then ':' else '?').toNat,
        ⟨⟨[prog, 45 :: 45 :: t], 2, none, UInt8.ofNat (o.val % 256).toNat, 1⟩, some k, []⟩) := by
    unfold getoptLong
    simp only [noW_wLong optstring hw, Bool.false_eq_true, if_false, hpp, List.drop_succ_cons, List.drop_zero, hidx, reduceCtorEq, and_false, if_true, Option.getD_some,
      Nat.add_zero, show (1 : Nat) ≠ 0 by decide]
    rw [mainLoop]
    simp only [List.getElem?_cons_succ, List.getElem?_cons_zero, ho, not_true_eq_false, if_false, if_true, List.drop_succ_cons, List.drop_zero]
    unfold longWord
    simp only [hi, hf, hk, Nat.lt_irrefl, if_false]
    unfold longConsume
    simp only [ha, if_true]
    by_cases hc : optstring.head? = some 58
    · simp [Res.bind, hc, show ':'.toUInt8 = 58 from rfl]
    · simp [Res.bind, hc, show ':'.toUInt8 = 58 from rfl]
  have h2 := getopt_end posix opts optstring hw hp [prog, 45 :: 45 :: t] [] (by simp) (by simp) none (UInt8.ofNat (o.val % 256).toNat) []
  have hne : (((if optstring.head? = some ':'.toUInt8 then ':' else '?').toNat : Nat) : Int) ≠ -1 := by
    split <;> decide
  refine ⟨⟨⟨[prog, 45 :: 45 :: t], 2, none, UInt8.ofNat (o.val % 256).toNat, 1⟩, none, []⟩, ?_, rfl⟩
  rw [run]
  show (getoptLong posix opts optstring ⟨⟨[prog, 45 :: 45 :: t], 1, none, 0, 1⟩, none, []⟩).bind _ = _
  rw [h1]
  simp only [Res.bind, hne, if_false]
  rw [run]
  simp only [List.append_nil, List.length_cons, List.length_nil] at h2
  show Res.bind ((getoptLong posix opts optstring ⟨⟨[prog, 45 :: 45 :: t], 2, none, UInt8.ofNat (o.val % 256).toNat, 1⟩, none, []⟩).bind _) _ = _
  rw [h2]
  rfl

/-! ### Cases -/

/-- Names for the examples. -/
def str (s : String) : Str := s.toList.map Char.toUInt8

/-- `{"verbose", no_argument, &v, 7}, {"version", no_argument, 0, 'V'}, {"output", required_argument, 0, 'o'}, {"color", optional_argument, 0, 'c'},
{"out", no_argument, 0, 1}` -/
def table : List LongOpt := [⟨str "verbose", 0, some 5, 7⟩, ⟨str "version", 0, none, 86⟩, ⟨str "output", 1, none, 111⟩,
  ⟨str "color", 2, none, 99⟩, ⟨str "out", 0, none, 1⟩]

/-- `--verb file --output -x --col=red -a --ver --out -- y`: an abbreviation, an argument that begins with a dash, an ambiguous
abbreviation, an exact name that begins another one. -/
def line : List LElem := [.opt (.plain (str "verb") 0), .operand (str "file"), .opt (.separate (str "output") 2 (str "-x")),
  .opt (.joined (str "col") 3 (str "red")), .opt (.short (.flag 97)), .opt (.wrong (str "ver")), .opt (.plain (str "out") 4)]

theorem means_of (opts : List LongOpt) (t : Str) (k : Nat) (o : LongOpt) (h : opts[k]? = some o) (hp : t.isPrefixOf o.name = true)
    (h1 : ∀ j, j < opts.length → ∀ x, opts[j]? = some x → t.isPrefixOf x.name = true → j = k) (h2 : o.name ≠ t) : Means opts t k o := by
  refine ⟨h, Or.inr ⟨?_, List.isPrefixOf_iff_prefix.1 hp, ?_⟩⟩
  · intro x hx he
    obtain ⟨j, hj⟩ := List.getElem?_of_mem hx
    have hlt := (List.getElem?_eq_some_iff.1 hj).1
    have := h1 j hlt x hj (by rw [he]; exact List.isPrefixOf_iff_prefix.2 (List.prefix_refl _))
    subst this
    rw [h] at hj
    cases hj
    exact h2 he
  · intro j x hj hpx
    exact h1 j (List.getElem?_eq_some_iff.1 hj).1 x hj (List.isPrefixOf_iff_prefix.2 hpx)

example : run false table (str "ab:") 7 { base := { argv := [str "prog", str "--verb", str "file", str "--output", str "-x", str "--col=red",
      str "-a", str "--ver", str "--out", str "--", str "y"] } } =
    .ok ([⟨⟨0, none, 0⟩, some 0, [(5, 7)]⟩, ⟨⟨111, some (str "-x"), 0⟩, some 2, [(5, 7)]⟩, ⟨⟨99, some (str "red"), 0⟩, some 3, [(5, 7)]⟩,
        ⟨⟨97, some (str "red"), 0⟩, none, [(5, 7)]⟩, ⟨⟨63, some (str "red"), 0⟩, none, [(5, 7)]⟩, ⟨⟨1, none, 0⟩, some 4, [(5, 7)]⟩],
      ⟨⟨[str "prog", str "--verb", str "--output", str "-x", str "--col=red", str "-a", str "--ver", str "--out", str "--", str "file", str "y"],
        9, none, 0, 1⟩, none, [(5, 7)]⟩) := by decide +kernel

theorem line_words : line.flatMap LElem.words = [str "--verb", str "file", str "--output", str "-x", str "--col=red", str "-a", str "--ver", str "--out"] := by
  decide +kernel

example : NoW (str "ab:") ∧ Permuting (str "ab:") ∧ EndOfOptions [str "--", str "y"] ∧ ∀ e ∈ line, e.Valid table (str "ab:") := by
  refine ⟨?_, by unfold Permuting; decide +kernel, Or.inr ⟨[str "y"], rfl⟩, ?_⟩
  · intro a b h
    have : (87 : UInt8) ∈ str "ab:" := by rw [h]; simp; exact Or.inr (Or.inl rfl)
    revert this
    decide +kernel
  · have m3 : Means table (str "out") 4 ⟨str "out", 0, none, 1⟩ := by
      refine ⟨rfl, Or.inl ⟨rfl, ?_⟩⟩
      intro j x hj hx
      have : ∀ j, j < 5 → (table[j]?.map (·.name)) = some (str "out") → j = 4 := by decide +kernel
      exact this j (List.getElem?_eq_some_iff.1 hj).1 (by rw [hj]; simp [hx])
    have m2 : Means table (str "output") 2 ⟨str "output", 1, none, 111⟩ := by
      refine ⟨rfl, Or.inl ⟨rfl, ?_⟩⟩
      intro j x hj hx
      have : ∀ j, j < 5 → (table[j]?.map (·.name)) = some (str "output") → j = 2 := by decide +kernel
      exact this j (List.getElem?_eq_some_iff.1 hj).1 (by rw [hj]; simp [hx])
    have pre : ∀ (t : Str) (k : Nat), (∀ j, j < 5 → (table[j]?.map (fun o => t.isPrefixOf o.name)) = some true → j = k) →
        ∀ j, j < table.length → ∀ x, table[j]? = some x → t.isPrefixOf x.name = true → j = k := by
      intro t k h j hj x hx hp
      exact h j hj (by rw [hx]; simp [hp])
    have m0 : Means table (str "verb") 0 ⟨str "verbose", 0, some 5, 7⟩ :=
      means_of table _ 0 _ rfl (by decide +kernel) (pre _ _ (by decide +kernel)) (by decide +kernel)
    have m4 : Means table (str "col") 3 ⟨str "color", 2, none, 99⟩ :=
      means_of table _ 3 _ rfl (by decide +kernel) (pre _ _ (by decide +kernel)) (by decide +kernel)
    intro e he
    simp only [line, List.mem_cons, List.not_mem_nil, or_false] at he
    rcases he with rfl | rfl | rfl | rfl | rfl | rfl | rfl
    · exact ⟨by unfold Typed; decide +kernel, _, m0, Or.inl (by simp), Or.inl rfl⟩
    · exact Or.inl (by decide +kernel)
    · exact ⟨by unfold Typed; decide +kernel, _, m2, Or.inr (by decide), rfl⟩
    · exact ⟨by unfold Typed; decide +kernel, _, m4, Or.inr (by decide), Or.inr rfl⟩
    · show Item.Valid _ _
      unfold Item.Valid
      decide +kernel
    · refine ⟨by unfold Typed; decide +kernel, Or.inr ⟨by decide +kernel, 0, 1, _, _, by decide, rfl, rfl, ?_, ?_⟩⟩
      · exact List.isPrefixOf_iff_prefix.1 (by decide +kernel)
      · exact List.isPrefixOf_iff_prefix.1 (by decide +kernel)
    · exact ⟨by unfold Typed; decide +kernel, _, m3, Or.inr (by decide), Or.inl rfl⟩

example : Typed (str "output") ∧ Means table (str "output") 2 ⟨str "output", 1, none, 111⟩ ∧
    run false table (str ":ab:") 2 { base := { argv := [str "prog", str "--output"] } } =
      .ok ([⟨⟨':'.toNat, none, 111⟩, some 2, []⟩], ⟨⟨[str "prog", str "--output"], 2, none, 111, 1⟩, none, []⟩) := by
  refine ⟨by unfold Typed; decide +kernel, ⟨rfl, Or.inl ⟨rfl, ?_⟩⟩, by decide +kernel⟩
  intro j x hj hx
  have : ∀ j, j < 5 → (table[j]?.map (·.name)) = some (str "output") → j = 2 := by decide +kernel
  exact this j (List.getElem?_eq_some_iff.1 hj).1 (by rw [hj]; simp [hx])

/-- An argument for an option without one, even an empty one, is refused with `:` rather than `?` if the option string begins with a
colon, as if an argument were missing, and `optopt` does not tell the option. -/
theorem extra_argument_violated : run false table (str ":ab:") 2 { base := { argv := [str "prog", str "--version=1"] } } =
    .ok ([⟨⟨':'.toNat, none, 0⟩, some 1, []⟩], ⟨⟨[str "prog", str "--version=1"], 2, none, 0, 1⟩, none, []⟩) := by decide +kernel

/-- Two abbreviations of the same meaning are ambiguous: with `{"colour", 2, 0, 'c'}` beside `{"color", 2, 0, 'c'}`, `--col` is refused. -/
theorem synonyms_violated : run false (table ++ [⟨str "colour", 2, none, 99⟩]) (str "") 2 { base := { argv := [str "prog", str "--col"] } } =
    .ok ([⟨⟨'?'.toNat, none, 0⟩, none, []⟩], ⟨⟨[str "prog", str "--col"], 2, none, 0, 1⟩, none, []⟩) := by decide +kernel

end Mlibc.Getopt.Long
