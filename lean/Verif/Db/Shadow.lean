import Verif.Db.Text

/-
The shadow database (options/glibc/generic/shadow.cpp L25-173, L233-247). As in `Verif.Db.Group`; of the errors of `open` only
"no such file" is modelled. Property C73.
-/
namespace Mlibc.Shadow
open Mlibc Mlibc.Db

/-! ## Model -/

/-- `struct spwd`. -1 stands for no value (in `flag` for the largest number). -/
structure Spwd where
  name : List Nat
  pwd : List Nat
  lstchg : Int
  min : Int
  max : Int
  warn : Int
  inact : Int
  expire : Int
  flag : Int
  deriving DecidableEq, Repr

/-- `NUM` with `%.*ld`: nothing for -1, else the number. L25-32 -/
def num (n : Int) : List Nat := if n = -1 then [] else if n < 0 then 45 :: dec n.natAbs else dec n.toNat

/-- `putspent`. L27-35 -/
def putspent (sp : Spwd) : List Nat :=
  sp.name ++ [58] ++ sp.pwd ++ [58] ++ num sp.lstchg ++ [58] ++ num sp.min ++ [58] ++ num sp.max ++ [58] ++ num sp.warn ++ [58] ++
    num sp.inact ++ [58] ++ num sp.expire ++ [58] ++ num sp.flag ++ [10]

/-- The loop of `xatol`; a `long` must not overflow. L43-45 -/
def atolLoop : List Nat → Nat → Res (Nat × List Nat)
  | [], x => .ok (x, [])
  | c :: s, x =>
    if 48 ≤ c ∧ c ≤ 57 then (if x * 10 + (c - 48) > 9223372036854775807 then .ub else atolLoop s (x * 10 + (c - 48)))
    else .ok (x, c :: s)

/-- `xatol`. L38-47 -/
def xatol (s : List Nat) : Res (Int × List Nat) :=
  if s.head? = some 58 ∨ s.head? = some 10 ∨ s = [] then .ok (-1, s)
  else (atolLoop s 0).bind fun r => .ok (r.1, r.2)

/-- `strchr(s, ':')`: what is before and behind the colon. L51-61 -/
def cut : List Nat → Option (List Nat × List Nat)
  | [] => none
  | c :: s => if c = 58 then some ([], s) else (cut s).bind fun r => some (c :: r.1, r.2)

/-- A number and a colon, then `k`. L63-97 -/
def numField (s : List Nat) (k : Int → List Nat → Res (Option Spwd)) : Res (Option Spwd) :=
  (xatol s).bind fun r => if r.2.head? = some 58 then k r.1 (r.2.drop 1) else .ok none

/-- `__parsespent`; `none` is the return value -1. L49-105 -/
def parse (s : List Nat) : Res (Option Spwd) :=
  match cut s with
  | none => .ok none
  | some (name, s) => match cut s with
    | none => .ok none
    | some (pwd, s) =>
      numField s fun lstchg s => numField s fun min s => numField s fun max s => numField s fun warn s =>
      numField s fun inact s => numField s fun expire s =>
      (xatol s).bind fun r =>
      if r.2.head? = some 10 ∨ r.2 = [] then .ok (some ⟨name, pwd, lstchg, min, max, warn, inact, expire, r.1⟩) else .ok none

/-- `sgetspent`. L233-245 -/
def sgetspent (s : List Nat) : Res (Option Spwd) := parse s

/-- The loop of `getspnam_r` over what `fgets` reads. L156-170 -/
def findLoop (name : List Nat) : List (List Nat) → Bool → Res (Except Nat (Option Spwd))
  | [], _ => .ok (.ok none)
  | b :: bs, skip =>
    let buf := b.takeWhile (· ≠ 0)
    if buf = [] then .ok (.ok none)
    else if skip = true ∨ (name ++ [58]).isPrefixOf buf = false then findLoop name bs (decide (buf.getLast? ≠ some 10))
    else if buf.getLast? ≠ some 10 then .ok (.error 34)
    else (parse buf).bind fun
      | none => findLoop name bs skip
      | some sp => .ok (.ok (some sp))

/-- `getspnam_r`: the error (EINVAL 22, ERANGE 34), or 0 and the entry or a null pointer. `tcb` is the contents of the user's own
file, `shadow` those of /etc/shadow. L111-173 -/
def getspnamR (tcb shadow : Option (List Nat)) (name : List Nat) (size : Nat) : Res (Except Nat (Option Spwd)) :=
  if name.head? = some 46 ∨ 47 ∈ name ∨ name = [] then .ok (.error 22)
  else if size < name.length + 100 then .ok (.error 34)
  else if name.length + 16 ≥ 275 then .ok (.error 22)
  else match tcb.or shadow with
    | none => .ok (.ok none)
    | some s => findLoop name (reads (size - 1) s.length s) false

/-! ## Specification -/
namespace Spec

/-- A number of the file: empty if there is none. -/
def number : Option Nat → List Nat
  | none => []
  | some n => dec n

def stored : Option Nat → Int
  | none => -1
  | some n => n

/-- What an entry says. -/
structure Entry where
  name : List Nat
  pwd : List Nat
  lstchg : Option Nat
  min : Option Nat
  max : Option Nat
  warn : Option Nat
  inact : Option Nat
  expire : Option Nat
  flag : Option Nat

def Entry.spwd (e : Entry) : Spwd :=
  ⟨e.name, e.pwd, stored e.lstchg, stored e.min, stored e.max, stored e.warn, stored e.inact, stored e.expire, stored e.flag⟩

/-- The line, without the newline. -/
def Entry.line (e : Entry) : List Nat :=
  List.intercalate [58] [e.name, e.pwd, number e.lstchg, number e.min, number e.max, number e.warn, number e.inact, number e.expire, number e.flag]

structure Entry.Good (e : Entry) : Prop where
  name : ∀ c ∈ e.name, c ≠ 58 ∧ c ≠ 10 ∧ c ≠ 0
  pwd : ∀ c ∈ e.pwd, c ≠ 58 ∧ c ≠ 10 ∧ c ≠ 0
  numbers : ∀ o ∈ [e.lstchg, e.min, e.max, e.warn, e.inact, e.expire, e.flag], ∀ n, o = some n → n ≤ 9223372036854775807

/-- A line that is not about this user. -/
def Other (name l : List Nat) : Prop := (∀ t, l ≠ name ++ 58 :: t) ∧ 10 ∉ l ∧ 0 ∉ l

end Spec
open Spec

/-! ## Proof -/

theorem atolLoop_digits (s : List Nat) (hd : ∀ c ∈ s, 48 ≤ c ∧ c ≤ 57) (r : List Nat) (hr : ∀ c, r.head? = some c → c = 58 ∨ c = 10) (v : Nat)
    (hv : s.foldl (fun v c => v * 10 + (c - 48)) v ≤ 9223372036854775807) :
    atolLoop (s ++ r) v = .ok (s.foldl (fun v c => v * 10 + (c - 48)) v, r) := by
  induction s generalizing v with
  | nil =>
    match r, hr with
    | [], _ => rfl
    | c :: r, hr =>
      have := hr c rfl
      simp only [List.nil_append, atolLoop, List.foldl_nil]
      rw [if_neg (by omega)]
  | cons c s ih =>
    have hmono : ∀ (s : List Nat) (v : Nat), v ≤ s.foldl (fun v c => v * 10 + (c - 48)) v := by
      intro s
      induction s with
      | nil => intro v; exact Nat.le_refl _
      | cons c s ih => intro v; exact Nat.le_trans (show v ≤ v * 10 + (c - 48) by omega) (ih _)
    simp only [List.foldl_cons] at hv ⊢
    simp only [List.cons_append, atolLoop]
    have := hmono s (v * 10 + (c - 48))
    rw [if_pos (hd c (by simp)), if_neg (by omega)]
    exact ih (fun x hx => hd x (by simp [hx])) _ hv

theorem xatol_number (o : Option Nat) (h : ∀ n, o = some n → n ≤ 9223372036854775807) (r : List Nat) (hr : ∀ c, r.head? = some c → c = 58 ∨ c = 10) :
    xatol (number o ++ r) = .ok (stored o, r) := by
  cases o with
  | none =>
    simp only [number, List.nil_append, stored]
    unfold xatol
    rw [if_pos]
    cases r with
    | nil => exact .inr (.inr rfl)
    | cons c r => rcases hr c rfl with rfl | rfl <;> simp
  | some n =>
    simp only [number, stored]
    unfold xatol
    have hdig := dec_digits n
    have hv : (dec n).foldl (fun v c => v * 10 + (c - 48)) 0 = n := dec_value n
    have hloop := atolLoop_digits (dec n) hdig r hr 0 (by rw [hv]; exact h n rfl)
    rw [hv] at hloop
    rw [if_neg, hloop]
    · rfl
    · obtain ⟨c, t, hc⟩ := List.exists_cons_of_ne_nil (dec_ne_nil n)
      have := hdig c (by rw [hc]; simp)
      rw [hc]
      simp
      omega

theorem numField_number (o : Option Nat) (h : ∀ n, o = some n → n ≤ 9223372036854775807) (r : List Nat) (k : Int → List Nat → Res (Option Spwd)) :
    numField (number o ++ 58 :: r) k = k (stored o) r := by
  unfold numField
  rw [xatol_number o h (58 :: r) (by rintro c ⟨⟩; exact .inl rfl)]
  simp [Res.bind]

theorem cut_field (p s : List Nat) (hp : 58 ∉ p) : cut (p ++ 58 :: s) = some (p, s) := by
  induction p with
  | nil => simp [cut]
  | cons c p ih =>
    simp only [List.mem_cons, not_or] at hp
    simp only [List.cons_append, cut]
    rw [if_neg (fun e => hp.1 e.symm), ih hp.2]
    rfl

theorem parse_line {e : Entry} (h : e.Good) (r : List Nat) (hr : r = [] ∨ r = [10]) : parse (e.line ++ r) = .ok (some e.spwd) := by
  have hl : e.line ++ r = e.name ++ 58 :: (e.pwd ++ 58 :: (number e.lstchg ++ 58 :: (number e.min ++ 58 :: (number e.max ++ 58 :: (number e.warn ++ 58 ::
      (number e.inact ++ 58 :: (number e.expire ++ 58 :: (number e.flag ++ r)))))))) := by
    simp [Entry.line, List.intercalate_cons_cons, List.intercalate_singleton]
  have hn := h.numbers
  rw [hl]
  unfold parse
  rw [cut_field _ _ (fun hc => (h.name _ hc).1 rfl)]
  simp only []
  rw [cut_field _ _ (fun hc => (h.pwd _ hc).1 rfl)]
  simp only []
  rw [numField_number _ (hn _ (by simp)), numField_number _ (hn _ (by simp)), numField_number _ (hn _ (by simp)), numField_number _ (hn _ (by simp)),
    numField_number _ (hn _ (by simp)), numField_number _ (hn _ (by simp)), xatol_number _ (hn _ (by simp))]
  · simp only [Res.bind]
    rw [if_pos]
    · rfl
    · rcases hr with rfl | rfl <;> simp
  · rcases hr with rfl | rfl
    · simp
    · rintro c ⟨⟩; exact .inr rfl

theorem num_stored (o : Option Nat) : num (stored o) = number o := by
  cases o with
  | none => rfl
  | some n =>
    unfold num stored number
    simp only []
    rw [if_neg (by omega), if_neg (by omega)]
    rfl

theorem number_chars (o : Option Nat) : ∀ c ∈ number o, 48 ≤ c ∧ c ≤ 57 := by
  cases o with
  | none => simp [number]
  | some n => exact dec_digits n

theorem line_chars {e : Entry} (h : e.Good) : 10 ∉ e.line ∧ 0 ∉ e.line := by
  have hl : e.line = e.name ++ 58 :: (e.pwd ++ 58 :: (number e.lstchg ++ 58 :: (number e.min ++ 58 :: (number e.max ++ 58 :: (number e.warn ++ 58 ::
      (number e.inact ++ 58 :: (number e.expire ++ 58 :: number e.flag))))))) := by
    simp [Entry.line, List.intercalate_cons_cons, List.intercalate_singleton]
  have key : ∀ c ∈ e.line, c ≠ 10 ∧ c ≠ 0 := by
    intro c hc
    rw [hl] at hc
    simp only [List.mem_append, List.mem_cons] at hc
    have hd := fun o => number_chars o c
    rcases hc with hc | rfl | hc | rfl | hc | rfl | hc | rfl | hc | rfl | hc | rfl | hc | rfl | hc | rfl | hc
    · exact (h.name c hc).2
    · decide
    · exact (h.pwd c hc).2
    · decide
    all_goals first | decide | (have := hd _ hc; omega)
  exact ⟨fun hc => (key _ hc).1 rfl, fun hc => (key _ hc).2 rfl⟩

theorem chunk_long (l r : List Nat) (h : 10 ∉ l) (n : Nat) (hn : n ≤ l.length) : chunk n (l ++ r) = (l.take n, l.drop n ++ r) := by
  induction l generalizing n with
  | nil =>
    have : n = 0 := by simpa using hn
    subst this
    cases r <;> rfl
  | cons c l ih =>
    cases n with
    | zero => rfl
    | succ n =>
      simp only [List.mem_cons, not_or] at h
      simp only [List.length_cons] at hn
      simp only [List.cons_append, chunk]
      rw [if_neg (fun e => h.1 e.symm), ih h.2 n (by omega)]
      rfl

/-- Behind the beginning of a long line, the rest of it is skipped. -/
theorem skip_line (name : List Nat) (n : Nat) (hn : 1 ≤ n) (r : List Nat) (out : Res (Except Nat (Option Spwd)))
    (hout : ∀ fuel, r.length ≤ fuel → findLoop name (reads n fuel r) false = out) :
    ∀ (k : Nat) (l : List Nat), l.length ≤ k → 10 ∉ l → 0 ∉ l → ∀ fuel, (l ++ 10 :: r).length ≤ fuel →
      findLoop name (reads n fuel (l ++ 10 :: r)) true = out := by
  intro k
  induction k with
  | zero =>
    intro l hl h10 h0 fuel hf
    have : l = [] := List.length_eq_zero_iff.1 (by omega)
    subst this
    simp only [List.nil_append, List.length_cons] at hf ⊢
    match fuel with
    | fuel + 1 =>
      simp only [reads]
      rw [if_neg (by simp), show chunk n (10 :: r) = ([10], r) from chunk_line [] r (by simp) n (by simp; omega)]
      simp [findLoop]
      exact hout fuel (by omega)
  | succ k ih =>
    intro l hl h10 h0 fuel hf
    simp only [List.length_append, List.length_cons] at hf
    match fuel with
    | fuel + 1 =>
      simp only [reads]
      rw [if_neg (by simp)]
      rcases Nat.lt_or_ge l.length n with hlt | hge
      · rw [chunk_line l r h10 n hlt]
        simp only [findLoop]
        rw [takeWhile_no_nul (l ++ [10]) (by simp [h0]), if_neg (by simp), if_pos (.inl trivial)]
        simp only [List.getLast?_concat, ne_eq, not_true_eq_false, decide_false]
        exact hout fuel (by omega)
      · rw [chunk_long l (10 :: r) h10 n hge]
        simp only [findLoop]
        have htake : 0 ∉ l.take n ∧ 10 ∉ l.take n := ⟨fun h => h0 (List.mem_of_mem_take h), fun h => h10 (List.mem_of_mem_take h)⟩
        rw [takeWhile_no_nul _ htake.1, if_neg (by
          intro h
          have := congrArg List.length h
          simp only [List.length_take, List.length_nil] at this
          omega), if_pos (.inl trivial), show decide ((l.take n).getLast? ≠ some 10) = true from
            decide_eq_true (fun h => htake.2 (List.mem_of_getLast? h))]
        exact ih (l.drop n) (by simp; omega) (fun h => h10 (List.mem_of_mem_drop h)) (fun h => h0 (List.mem_of_mem_drop h)) fuel
          (by simp; omega)

theorem prefix_iff (p l : List Nat) : p.isPrefixOf l = true ↔ ∃ t, l = p ++ t := by
  rw [List.isPrefixOf_iff_prefix]
  exact ⟨fun ⟨t, h⟩ => ⟨t, h.symm⟩, fun ⟨t, h⟩ => ⟨t, h.symm⟩⟩

/-- A line about someone else, of any length, makes no difference. -/
theorem other_line (name : List Nat) (n : Nat) (hn : name.length + 1 ≤ n) (l r : List Nat) (hl : Other name l) (out : Res (Except Nat (Option Spwd)))
    (hout : ∀ fuel, r.length ≤ fuel → findLoop name (reads n fuel r) false = out) (fuel : Nat) (hf : (l ++ 10 :: r).length ≤ fuel) :
    findLoop name (reads n fuel (l ++ 10 :: r)) false = out := by
  obtain ⟨ho, h10, h0⟩ := hl
  simp only [List.length_append, List.length_cons] at hf
  match fuel with
  | fuel + 1 =>
    simp only [reads]
    rw [if_neg (by simp)]
    rcases Nat.lt_or_ge l.length n with hlt | hge
    · rw [chunk_line l r h10 n hlt]
      simp only [findLoop]
      have hp : (name ++ [58]).isPrefixOf (l ++ [10]) = false := by
        rw [Bool.eq_false_iff, ne_eq, prefix_iff]
        rintro ⟨t, ht⟩
        rcases List.eq_nil_or_concat t with rfl | ⟨t', x, rfl⟩
        · rw [List.append_nil] at ht
          have := congrArg List.getLast? ht
          simp at this
        · rw [List.concat_eq_append, ← List.append_assoc] at ht
          have := (List.append_inj' ht rfl).1
          exact ho t' (by rw [this]; simp)
      rw [takeWhile_no_nul (l ++ [10]) (by simp [h0]), if_neg (by simp), if_pos (.inr hp)]
      simp only [List.getLast?_concat, ne_eq, not_true_eq_false, decide_false]
      exact hout fuel (by omega)
    · rw [chunk_long l (10 :: r) h10 n hge]
      simp only [findLoop]
      have htake : 0 ∉ l.take n ∧ 10 ∉ l.take n := ⟨fun h => h0 (List.mem_of_mem_take h), fun h => h10 (List.mem_of_mem_take h)⟩
      have hp : (name ++ [58]).isPrefixOf (l.take n) = false := by
        rw [Bool.eq_false_iff, ne_eq, prefix_iff]
        rintro ⟨t, ht⟩
        refine ho (t ++ l.drop n) ?_
        have := (List.take_append_drop n l).symm
        rw [ht] at this
        simpa using this
      rw [takeWhile_no_nul _ htake.1, if_neg (by
        intro h
        have := congrArg List.length h
        simp only [List.length_take, List.length_nil] at this
        omega), if_pos (.inr hp), show decide ((l.take n).getLast? ≠ some 10) = true from
          decide_eq_true (fun h => htake.2 (List.mem_of_getLast? h))]
      exact skip_line name n (by omega) r out hout l.length (l.drop n) (by simp) (fun h => h10 (List.mem_of_mem_drop h))
        (fun h => h0 (List.mem_of_mem_drop h)) fuel (by simp; omega)

theorem other_lines (name : List Nat) (n : Nat) (hn : name.length + 1 ≤ n) (ls : List (List Nat)) (hl : ∀ l ∈ ls, Other name l) (r : List Nat)
    (out : Res (Except Nat (Option Spwd))) (hout : ∀ fuel, r.length ≤ fuel → findLoop name (reads n fuel r) false = out) :
    ∀ fuel, (file ls ++ r).length ≤ fuel → findLoop name (reads n fuel (file ls ++ r)) false = out := by
  induction ls with
  | nil => simpa [file] using hout
  | cons l ls ih =>
    have he : file (l :: ls) ++ r = l ++ 10 :: (file ls ++ r) := by simp [file]
    rw [he]
    exact other_line name n hn l _ (hl l (by simp)) out (ih (fun x hx => hl x (by simp [hx])))

/-! ## C73 -/

/-- A name that may be looked up: not empty, no slash, no dot at the beginning, not too long for a path. -/
structure NameOk (name : List Nat) : Prop where
  dot : name.head? ≠ some 46
  slash : 47 ∉ name
  nonempty : name ≠ []
  short : name.length < 259

theorem getspnam_start {name : List Nat} (hn : NameOk name) {size : Nat} (hs : name.length + 100 ≤ size) {tcb shadow : Option (List Nat)} {s : List Nat}
    (hf : tcb.or shadow = some s) : getspnamR tcb shadow name size = findLoop name (reads (size - 1) s.length s) false := by
  unfold getspnamR
  rw [if_neg (by
    rintro (h | h | h)
    · exact hn.dot h
    · exact hn.slash h
    · exact hn.nonempty h), if_neg (by omega), if_neg (by have := hn.short; omega), hf]

/-- A buffer with less than a hundred bytes besides the name is refused with ERANGE, whatever the files hold. -/
theorem getspnam_small {name : List Nat} (hn : NameOk name) {size : Nat} (hs : size < name.length + 100) (tcb shadow : Option (List Nat)) :
    getspnamR tcb shadow name size = .ok (.error 34) := by
  unfold getspnamR
  rw [if_neg (by
    rintro (h | h | h)
    · exact hn.dot h
    · exact hn.slash h
    · exact hn.nonempty h), if_pos hs]

/-- The first entry of the user is found, if the buffer has room for its line; else the error is ERANGE. The lines before it are of
any length, those after it arbitrary. -/
theorem getspnam_found {e : Entry} (h : e.Good) (hn : NameOk e.name) (size : Nat) (hs : e.name.length + 100 ≤ size) (before : List (List Nat))
    (hb : ∀ l ∈ before, Other e.name l) (after : List Nat) (tcb shadow : Option (List Nat)) (hf : tcb.or shadow = some (file before ++ (e.line ++ 10 :: after))) :
    getspnamR tcb shadow e.name size = .ok (if e.line.length + 2 ≤ size then .ok (some e.spwd) else .error 34) := by
  rw [getspnam_start hn hs hf]
  refine other_lines e.name (size - 1) (by omega) before hb _ _ ?_ _ (Nat.le_refl _)
  intro fuel hfuel
  simp only [List.length_append, List.length_cons] at hfuel
  obtain ⟨h10, h0⟩ := line_chars h
  obtain ⟨t, ht⟩ : ∃ t, e.line = e.name ++ 58 :: t := by
    simp [Entry.line, List.intercalate_cons_cons]
  match fuel with
  | fuel + 1 =>
    simp only [reads]
    rw [if_neg (by simp)]
    by_cases hfit : e.line.length + 2 ≤ size
    · rw [if_pos hfit, chunk_line _ _ h10 _ (by omega)]
      simp only [findLoop]
      have hp : (name : List Nat) → name = e.name → (name ++ [58]).isPrefixOf (e.line ++ [10]) = true := by
        rintro _ rfl
        rw [prefix_iff]
        exact ⟨t ++ [10], by rw [ht]; simp⟩
      rw [takeWhile_no_nul (e.line ++ [10]) (by simp [h0]), if_neg (by simp), if_neg (by rw [hp _ rfl]; simp), if_neg (by simp),
        parse_line h [10] (.inr rfl)]
      rfl
    · rw [if_neg hfit, chunk_long _ _ h10 _ (by omega)]
      simp only [findLoop]
      have htake : 0 ∉ e.line.take (size - 1) ∧ 10 ∉ e.line.take (size - 1) := ⟨fun h => h0 (List.mem_of_mem_take h), fun h => h10 (List.mem_of_mem_take h)⟩
      have hp : (e.name ++ [58]).isPrefixOf (e.line.take (size - 1)) = true := by
        rw [prefix_iff]
        refine ⟨t.take (size - 1 - (e.name.length + 1)), ?_⟩
        rw [ht, show e.name ++ 58 :: t = (e.name ++ [58]) ++ t by simp, List.take_append, List.take_of_length_le (by simp; omega)]
        simp
      rw [takeWhile_no_nul _ htake.1, if_neg (by
        intro h
        have := congrArg List.length h
        simp only [List.length_take, List.length_nil] at this
        omega), if_neg (by rw [hp]; simp), if_pos (fun h => htake.2 (List.mem_of_getLast? h))]

/-- Without a line of the user (or without a file) the result is 0 and a null pointer. -/
theorem getspnam_absent {name : List Nat} (hn : NameOk name) (size : Nat) (hs : name.length + 100 ≤ size) (ls : List (List Nat))
    (hb : ∀ l ∈ ls, Other name l) (tcb shadow : Option (List Nat)) (hf : tcb.or shadow = some (file ls) ∨ tcb.or shadow = none) :
    getspnamR tcb shadow name size = .ok (.ok none) := by
  rcases hf with hf | hf
  · rw [getspnam_start hn hs hf]
    have := other_lines name (size - 1) (by omega) ls hb [] (.ok (.ok none)) (by intro fuel _; cases fuel <;> simp [reads, findLoop])
    rw [List.append_nil] at this
    exact this _ (Nat.le_refl _)
  · unfold getspnamR
    rw [if_neg (by
      rintro (h | h | h)
      · exact hn.dot h
      · exact hn.slash h
      · exact hn.nonempty h), if_neg (by omega), if_neg (by have := hn.short; omega), hf]

/-- Names that could lead to another file are refused. -/
theorem getspnam_refuses (tcb shadow : Option (List Nat)) (name : List Nat) (size : Nat) (h : name.head? = some 46 ∨ 47 ∈ name ∨ name = []) :
    getspnamR tcb shadow name size = .ok (.error 22) := by
  unfold getspnamR
  rw [if_pos h]

/-- What putspent writes is read back; no values stay no values. -/
theorem putspent_round_trip {e : Entry} (h : e.Good) : sgetspent (putspent e.spwd) = .ok (some e.spwd) := by
  have : putspent e.spwd = e.line ++ [10] := by
    simp [putspent, Entry.spwd, num_stored, Entry.line, List.intercalate_cons_cons, List.intercalate_singleton]
  rw [this]
  exact parse_line h [10] (.inr rfl)

/-! ### Examples and where the code differs -/

def txt (s : String) : List Nat := s.toList.map Char.toNat

def ann : Entry := ⟨txt "ann", txt "$6$x", some 19000, some 0, some 99999, some 7, none, none, none⟩

theorem ann_good : ann.Good := by
  refine ⟨by decide +kernel, by decide +kernel, ?_⟩
  intro o ho n hn
  subst hn
  simp only [ann, List.mem_cons, Option.some.injEq, List.not_mem_nil, or_false] at ho
  rcases ho with h | h | h | h | h | h | h <;> first | omega | cases h

theorem ann_name : NameOk ann.name := ⟨by decide, by decide, by decide, by decide⟩

/-- A line longer than the buffer stands before. -/
example : getspnamR none (some (file [txt "anna:" ++ List.replicate 300 97] ++ (ann.line ++ 10 :: txt "rest"))) (txt "ann") 256 = .ok (.ok (some ann.spwd)) := by
  have := getspnam_found ann_good ann_name 256 (by decide) [txt "anna:" ++ List.replicate 300 97] (by
    intro l hl
    simp only [List.mem_singleton] at hl
    subst hl
    refine ⟨fun t ht => ?_, by decide +kernel, by decide +kernel⟩
    have h3 := congrArg (fun l => l[3]?) ht
    have h1 : (txt "anna:" ++ List.replicate 300 97)[3]? = some 97 := by decide +kernel
    have h2 : (ann.name ++ 58 :: t)[3]? = some 58 := by
      rw [List.getElem?_append_right (by decide)]; rfl
    exact absurd (h1.symm.trans (h3.trans h2)) (by decide)) (txt "rest") none _ rfl
  rw [show txt "ann" = ann.name from rfl, this, if_pos (by decide +kernel)]

example : sgetspent (putspent ann.spwd) = .ok (some ann.spwd) := putspent_round_trip ann_good

/-- putspent does not refuse texts with colons; the entry cannot be read back, or another one is. Negative numbers cannot
either. A number that `long` cannot hold is undefined. A last line without a newline is an error even if it fits. -/
theorem shadow_violated : sgetspent (putspent ⟨txt "a:b", txt "x", 1, 1, 1, 1, 1, 1, 1⟩) = .ok none ∧
    sgetspent (putspent ⟨txt "a", txt "x", -5, 1, 1, 1, 1, 1, 1⟩) = .ok none ∧
    sgetspent (txt "a:x:9223372036854775808::::::") = .ub ∧
    findLoop (txt "ann") (reads 255 20 (txt "ann:x:1::::::")) false = .ok (.error 34) := by
  refine ⟨by decide +kernel, by decide +kernel, by decide +kernel, ?_⟩
  have h : reads 255 20 (txt "ann:x:1::::::") = [txt "ann:x:1::::::"] := by decide +kernel
  rw [h]
  rfl

end Mlibc.Shadow
