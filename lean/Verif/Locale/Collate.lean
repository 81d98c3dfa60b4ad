import Verif.Base
import Mathlib.Data.List.Lex
/-
C107: strcoll, wcscoll, strxfrm, wcsxfrm with the tables of a locale.

Models options/internal/include/mlibc/collation.hpp (lines without a file name are its lines) and
options/ansi/generic/string.cpp L94-97, L117-134, L333-360. Strings are lists of code units without the
terminating null character; a pointer into a string is what is left of it. `getIndex` (the lookup of the
collating element at a place of the string, L216-258) is a parameter here; it is modelled in Locale/CollIndex.
Simplifications: numbers are unbounded (weights are below 2^31), reading behind a table gives 0.
Not modelled: the C locale (no rules), where strcoll calls a function of another library.
-/
set_option linter.unusedSimpArgs false
set_option linter.unusedVariables false
namespace Mlibc.Collate

/-! ### Model -/

/-- The tables of LC_COLLATE. `getIndex`: section, index into the weights, code units consumed. L263-298 -/
structure Tables where
  nrules : Nat
  rulesets : List Nat
  weights : List Nat
  getIndex : List Nat → Nat × Nat × Nat

/-- `ctx.rulesets[r * ctx.nrules + pass] & sort_backward`. L22, L404 -/
def Tables.backward (T : Tables) (r pass : Nat) : Bool := T.rulesets.getD (r * T.nrules + pass) 0 / 2 % 2 == 1

/-- `ctx.rulesets[r * ctx.nrules + pass] & sort_position`. L23, L496, L554 -/
def Tables.position (T : Tables) (r pass : Nat) : Bool := T.rulesets.getD (r * T.nrules + pass) 0 / 4 % 2 == 1

/-- The fold over `pass` weight sequences: position and length. L434-441 -/
def skipW (W : List Nat) : Nat → Nat × Nat → Nat × Nat
  | 0, q => q
  | p + 1, q => skipW W p (q.1 + q.2 + 1, W.getD (q.1 + q.2) 0)

/-- The weights of an element in a pass. L432-444 -/
def weightAt (T : Tables) (pass idx : Nat) : List Nat :=
  let q := skipW T.weights pass (idx + 1, T.weights.getD idx 0)
  (T.weights.drop q.1).take q.2

/-- `coll_seq` (`backward_us` is only used where it is set). L301-331 -/
structure Seq where
  us : List Nat := []
  offset : Nat := 0
  highest : Nat := 0
  fwd : Nat := 0
  bidx : Option Nat := none
  bstop : Option Nat := none
  rule : Nat := 0
  weights : List Nat := []
  idx : Nat := 0
  saveIdx : Nat := 0
  buffer : List Nat := []
  deriving DecidableEq, Repr

/-- `pass_reset`. L357-366 -/
def Seq.passReset (s : Seq) : Seq := { s with weights := [], idx := 0, fwd := 0, bidx := none, bstop := none, buffer := [] }

/-- The variables of the inner loop. -/
structure Run where
  cur : List Nat
  idx : Nat
  prev : Nat
  highest : Nat
  fwd : Nat
  rule : Nat

/-- The inner loop: elements up to the first forward one. L396-407 -/
def readRun (T : Tables) (pass : Nat) : Nat → Run → Run
  | 0, r => r
  | fuel + 1, r =>
    if r.cur = [] then r
    else
      let g := T.getIndex r.cur
      let r' : Run := { cur := r.cur.drop g.2.2, idx := g.2.1, prev := r.idx, highest := r.highest + 1, fwd := r.highest,
                        rule := if r.highest = 0 then g.1 else r.rule }
      if T.backward g.1 pass then readRun T pass fuel { r' with fwd := r'.fwd + 1 } else r'

/-- The loop that fills the buffer. L425-428 -/
def readIdx (T : Tables) : Nat → List Nat → List Nat
  | 0, _ => []
  | k + 1, us => (T.getIndex us).2.1 :: readIdx T k (us.drop (T.getIndex us).2.2)

/-- The body of the loop of `next` up to L430: `true` is `return std::nullopt`. L376-430 -/
def turn (T : Tables) (pass : Nat) (s : Seq) (cur : List Nat) : Bool × Seq × List Nat :=
  match s.bstop with
  | some stop =>
    if s.bidx = some stop then
      if s.fwd < s.highest then (false, { s with idx := s.saveIdx, saveIdx := 0, bstop := none }, cur)
      else (true, { s with idx := 0 }, cur)
    else
      (false, { s with idx := s.buffer.getLast?.getD 0, buffer := s.buffer.dropLast, bidx := s.bidx.map (· - 1) }, cur)
  | none =>
    let r := readRun T pass (cur.length + 1) ⟨cur, s.idx, s.idx, s.highest, s.fwd, s.rule⟩
    let s1 : Seq := { s with highest := r.highest, fwd := r.fwd, rule := r.rule, idx := r.idx }
    if s.highest ≥ r.fwd then
      if r.fwd = r.highest ∨ s.highest > r.fwd then (true, { s1 with bstop := some s.highest }, r.cur)
      else (false, { s1 with bstop := none }, r.cur)
    else
      let more := decide (r.highest > r.fwd)
      let b := if more then r.fwd - 1 else r.fwd
      let b := if b > s.highest then b - 1 else b
      (false, { s1 with bstop := some s.highest, us := r.cur, bidx := some b, buffer := readIdx T (b - s.highest) s.us,
                        saveIdx := if more then r.idx else s.saveIdx, idx := if more then r.prev else r.idx }, r.cur)

/-- The loop of `next`. `true`: weights have been found. L375-448 -/
def nextLoop (T : Tables) (pass : Nat) : Nat → Seq → List Nat → Option (Bool × Seq)
  | 0, _, _ => none
  | fuel + 1, s, cur =>
    if s.weights ≠ [] then some (true, { s with us := cur })
    else
      let t := turn T pass { s with offset := s.offset + 1 } cur
      if t.1 then some (false, t.2.1)
      else nextLoop T pass fuel { t.2.1 with weights := weightAt T pass t.2.1.idx } t.2.2

/-- `next`; `none`: out of fuel. L370-449 -/
def next (T : Tables) (pass : Nat) (s : Seq) : Option (Bool × Seq) :=
  nextLoop T pass (s.us.length + s.buffer.length + 3) { s with offset := 0 } s.us

/-- `std::ranges::mismatch`: what is left of both. L341 -/
def mismatch : List Nat → List Nat → List Nat × List Nat
  | x :: xs, y :: ys => if x = y then mismatch xs ys else (x :: xs, y :: ys)
  | xs, ys => (xs, ys)

/-- `compare`. L333-355 -/
def compare (s1 s2 : Seq) (position : Bool) : Int × Seq × Seq :=
  if position = true ∧ s1.offset ≠ s2.offset then (if s1.offset > s2.offset then 1 else -1, s1, s2)
  else
    let q := mismatch s1.weights s2.weights
    let s1' := { s1 with weights := q.1 }
    let s2' := { s2 with weights := q.2 }
    match q with
    | (x :: _, y :: _) => ((x : Int) - y, s1', s2')
    | _ => (if position then (s1.weights.length : Int) - s2.weights.length else 0, s1', s2')

/-- How a pass ends: with the result, or equal. -/
inductive End where
  | ret (r : Int)
  | equal (s1 s2 : Seq)

/-- -1, 0 or 1. L490 -/
def clamp (x : Int) : Int := if x > 0 then 1 else if x < 0 then -1 else 0

/-- The loop of a pass. L484-499 -/
def passLoop (T : Tables) (pass : Nat) (position : Bool) : Nat → Seq → Seq → Option End
  | 0, _, _ => none
  | fuel + 1, s1, s2 =>
    match next T pass s1, next T pass s2 with
    | some (f1, s1), some (f2, s2) =>
      if f1 = false ∨ f2 = false then
        let cmp : Int := (s1.weights.length : Int) - s2.weights.length
        if cmp ≠ 0 then some (.ret (clamp cmp)) else some (.equal s1 s2)
      else
        let c := compare s1 s2 position
        if c.1 ≠ 0 then some (.ret c.1) else passLoop T pass position fuel c.2.1 c.2.2
    | _, _ => none

/-- The passes. `result` is 0 whenever a pass ends without returning. L477-505 -/
def passes (T : Tables) (a b : List Nat) : List Nat → Nat → Seq → Seq → Option Int
  | [], _, _, _ => some 0
  | p :: ps, rule, s1, s2 =>
    match passLoop T p (T.position rule p) (2 * (a.length + b.length) + 1) { s1.passReset with us := a } { s2.passReset with us := b } with
    | none => none
    | some (.ret r) => some r
    | some (.equal s1 s2) => if p = 0 ∧ a = b then some 0 else passes T a b ps s1.rule s1 s2

/-- strcoll and wcscoll with rules. L453-505 -/
def strcoll (T : Tables) (a b : List Nat) : Option Int :=
  if a = [] ∨ b = [] then some ((if a ≠ [] then 1 else 0) - (if b ≠ [] then 1 else 0))
  else passes T a b (List.range T.nrules) 0 {} {}

/-! ### Specification -/

/-- A locale: the weights of every element in every pass, and the passes that go backward, and that count
ignored elements. -/
structure Locale where
  weights : Nat → List (List Nat)
  backward : Nat → Bool
  position : Nat → Bool

/-- At `idx` the table contains the sequences `ws`, each behind its length. -/
def Stored (W : List Nat) (idx : Nat) (ws : List (List Nat)) : Prop :=
  ∃ rest, W.drop idx = ws.flatMap (fun w => w.length :: w) ++ rest

/-- The tables are those of a locale whose passes have one direction each, and count ignored elements everywhere
or nowhere. -/
structure Describes (T : Tables) (L : Locale) : Prop where
  parses : ∀ s, s ≠ [] → 1 ≤ (T.getIndex s).2.2 ∧ (T.getIndex s).2.2 ≤ s.length
  stored : ∀ s, s ≠ [] → Stored T.weights (T.getIndex s).2.1 (L.weights (T.getIndex s).2.1) ∧
    (L.weights (T.getIndex s).2.1).length = T.nrules
  backward : ∀ s, s ≠ [] → ∀ p < T.nrules, T.backward (T.getIndex s).1 p = L.backward p
  position : ∀ s, s ≠ [] → ∀ p < T.nrules, T.position (T.getIndex s).1 p = L.position p
  position0 : ∀ p < T.nrules, T.position 0 p = L.position p

/-- The elements of a string. -/
def elemsN (T : Tables) : Nat → List Nat → List Nat
  | 0, _ => []
  | n + 1, s => if s = [] then [] else (T.getIndex s).2.1 :: elemsN T n (s.drop (T.getIndex s).2.2)

def elems (T : Tables) (s : List Nat) : List Nat := elemsN T s.length s

/-- The weights that are not empty, with the distance to the one before. -/
def gaps : Nat → List (List Nat) → List (Nat × List Nat)
  | _, [] => []
  | g, w :: ws => if w = [] then gaps (g + 1) ws else (g + 1, w) :: gaps 0 ws

/-- The weights of a string in a pass. -/
def level (T : Tables) (L : Locale) (p : Nat) (s : List Nat) : List (List Nat) :=
  let ws := (elems T s).map fun e => (L.weights e).getD p []
  if L.backward p then ws.reverse else ws

/-- What is compared in a pass: all weights, one after the other; or, if ignored elements count, pairs of the
distance and the weights of an element. -/
def key (T : Tables) (L : Locale) (p : Nat) (s : List Nat) : List (List Nat) :=
  if L.position p then (gaps 0 (level T L p s)).map fun q => q.1 :: q.2
  else (level T L p s).flatten.map fun x => [x]

/-- The key of a string: what is compared in the passes. The empty string is the first. Keys are compared
lexicographically. -/
def sortKey (T : Tables) (L : Locale) (s : List Nat) : List (List (List Nat)) :=
  if s = [] then [] else (List.range T.nrules).map fun p => key T L p s

/-! ### Elements and weights -/

variable {T : Tables} {L : Locale}

theorem elemsN_eq (h : Describes T L) : ∀ n s, s.length ≤ n → elemsN T n s = elems T s := by
  have key : ∀ n m s, s.length ≤ n → s.length ≤ m → elemsN T n s = elemsN T m s := by
    intro n
    induction n with
    | zero =>
      intro m s h1 h2
      have : s = [] := List.length_eq_zero_iff.1 (by omega)
      subst this
      cases m <;> simp [elemsN]
    | succ n ih =>
      intro m s h1 h2
      by_cases hs : s = []
      · subst hs; cases m <;> simp [elemsN]
      · cases m with
        | zero => exact absurd (List.length_eq_zero_iff.1 (by omega)) hs
        | succ m =>
          obtain ⟨q1, q2⟩ := h.parses s hs
          simp only [elemsN, hs, if_false]
          rw [ih m _ (by simp; omega) (by simp; omega)]
  intro n s hn
  exact key n _ s hn (Nat.le_refl _)

theorem elems_nil : elems T [] = [] := rfl

theorem elems_cons (h : Describes T L) (s : List Nat) (hs : s ≠ []) :
    elems T s = (T.getIndex s).2.1 :: elems T (s.drop (T.getIndex s).2.2) := by
  obtain ⟨q1, q2⟩ := h.parses s hs
  have hl : 0 < s.length := List.length_pos_iff.2 hs
  unfold elems
  obtain ⟨n, hn⟩ : ∃ n, s.length = n + 1 := ⟨s.length - 1, by omega⟩
  rw [hn]
  simp only [elemsN, hs, if_false]
  rw [elemsN_eq h _ _ (by simp; omega)]
  rfl

theorem elems_length (h : Describes T L) : ∀ n s, s.length ≤ n → (elems T s).length ≤ s.length := by
  intro n
  induction n with
  | zero =>
    intro s hs
    have : s = [] := List.length_eq_zero_iff.1 (by omega)
    subst this; simp [elems_nil]
  | succ n ih =>
    intro s hn
    by_cases hs : s = []
    · subst hs; simp [elems_nil]
    · obtain ⟨q1, q2⟩ := h.parses s hs
      rw [elems_cons h s hs, List.length_cons]
      have := ih (s.drop (T.getIndex s).2.2) (by simp; omega)
      simp only [List.length_drop] at this
      omega

theorem elems_known (h : Describes T L) : ∀ n s, s.length ≤ n → ∀ e ∈ elems T s,
    Stored T.weights e (L.weights e) ∧ (L.weights e).length = T.nrules := by
  intro n
  induction n with
  | zero =>
    intro s hs
    have : s = [] := List.length_eq_zero_iff.1 (by omega)
    subst this; simp [elems_nil]
  | succ n ih =>
    intro s hn e he
    by_cases hs : s = []
    · subst hs; simp [elems_nil] at he
    · obtain ⟨q1, q2⟩ := h.parses s hs
      rw [elems_cons h s hs] at he
      rcases List.mem_cons.1 he with rfl | he
      · exact h.stored s hs
      · exact ih _ (by simp; omega) e he

theorem skipW_stored (W : List Nat) : ∀ (p i : Nat) (w : List Nat) (ws : List (List Nat)) (rest : List Nat),
    W.drop i = w ++ (ws.flatMap (fun w => w.length :: w) ++ rest) → p ≤ ws.length →
    ∃ j, skipW W p (i, w.length) = (j, ((w :: ws).getD p []).length) ∧
      ∃ r, W.drop j = (w :: ws).getD p [] ++ r := by
  intro p
  induction p with
  | zero => intro i w ws rest h _; exact ⟨i, rfl, _, h⟩
  | succ p ih =>
    intro i w ws rest h hp
    cases ws with
    | nil => simp at hp
    | cons v ws =>
      have h1 : W.drop (i + w.length) = v.length :: (v ++ (ws.flatMap (fun w => w.length :: w) ++ rest)) := by
        rw [← List.drop_drop, h]; simp
      have h2 : W.drop (i + w.length + 1) = v ++ (ws.flatMap (fun w => w.length :: w) ++ rest) := by
        rw [← List.drop_drop, h1]; simp
      have h3 : W.getD (i + w.length) 0 = v.length := by
        have : W[i + w.length]? = (W.drop (i + w.length))[0]? := by simp
        rw [List.getD_eq_getElem?_getD, this, h1]; simp
      simp only [skipW, h3]
      have := ih _ v ws rest h2 (by simpa using hp)
      simpa using this

theorem weightAt_stored (T : Tables) (p idx : Nat) (ws : List (List Nat)) (h : Stored T.weights idx ws) (hp : p < ws.length) :
    weightAt T p idx = ws.getD p [] := by
  obtain ⟨rest, h⟩ := h
  cases ws with
  | nil => simp at hp
  | cons w ws =>
    have h1 : T.weights.drop (idx + 1) = w ++ (ws.flatMap (fun w => w.length :: w) ++ rest) := by
      rw [← List.drop_drop, h]; simp
    have h3 : T.weights.getD idx 0 = w.length := by
      have : T.weights[idx]? = (T.weights.drop idx)[0]? := by simp
      rw [List.getD_eq_getElem?_getD, this, h]; simp
    obtain ⟨j, e1, r, e2⟩ := skipW_stored T.weights p _ w ws rest h1 (by simp at hp; omega)
    unfold weightAt
    simp only [h3, e1, e2]
    simp

theorem map_weightAt (h : Describes T L) (p : Nat) (hp : p < T.nrules) (s : List Nat) :
    (elems T s).map (weightAt T p) = (elems T s).map fun e => (L.weights e).getD p [] := by
  apply List.map_congr_left
  intro e he
  obtain ⟨h1, h2⟩ := elems_known h _ s (Nat.le_refl _) e he
  exact weightAt_stored T p e _ h1 (by omega)

/-! ### The walk over a string -/

/-- The section a string begins with says the same about positions as all others. -/
def RuleOk (T : Tables) (L : Locale) (r : Nat) : Prop := ∀ p < T.nrules, T.position r p = L.position p

theorem readRun_forward (h : Describes T L) (p : Nat) (hp : p < T.nrules) (hb : L.backward p = false) (fuel : Nat) (r : Run)
    (hr : r.cur ≠ []) : readRun T p (fuel + 1) r =
      { cur := r.cur.drop (T.getIndex r.cur).2.2, idx := (T.getIndex r.cur).2.1, prev := r.idx, highest := r.highest + 1,
        fwd := r.highest, rule := if r.highest = 0 then (T.getIndex r.cur).1 else r.rule } := by
  simp [readRun, hr, h.backward r.cur hr p hp, hb]

theorem readRun_backward (h : Describes T L) (p : Nat) (hp : p < T.nrules) (hb : L.backward p = true) :
    ∀ (fuel : Nat) (r : Run), r.cur.length < fuel → r.cur ≠ [] → RuleOk T L r.rule →
      (readRun T p fuel r).cur = [] ∧ (readRun T p fuel r).highest = r.highest + (elems T r.cur).length ∧
      (readRun T p fuel r).fwd = r.highest + (elems T r.cur).length ∧
      (elems T r.cur).getLast? = some (readRun T p fuel r).idx ∧ RuleOk T L (readRun T p fuel r).rule := by
  intro fuel
  induction fuel with
  | zero => intro r h1; omega
  | succ fuel ih =>
    intro r h1 h2 h3
    obtain ⟨q1, q2⟩ := h.parses r.cur h2
    obtain ⟨r', hr'⟩ : ∃ r' : Run, r' = ⟨r.cur.drop (T.getIndex r.cur).2.2, (T.getIndex r.cur).2.1, r.idx, r.highest + 1,
      r.highest + 1, if r.highest = 0 then (T.getIndex r.cur).1 else r.rule⟩ := ⟨_, rfl⟩
    have hstep : readRun T p (fuel + 1) r = readRun T p fuel r' := by
      simp [readRun, h2, h.backward r.cur h2 p hp, hb, hr']
    have c1 : r'.cur = r.cur.drop (T.getIndex r.cur).2.2 := by rw [hr']
    have c2 : r'.idx = (T.getIndex r.cur).2.1 := by rw [hr']
    have c3 : r'.highest = r.highest + 1 := by rw [hr']
    have c4 : r'.fwd = r.highest + 1 := by rw [hr']
    have hrule : RuleOk T L r'.rule := by
      rw [hr']
      simp only
      split
      · intro p hp; exact h.position r.cur h2 p hp
      · exact h3
    rw [hstep, elems_cons h _ h2, ← c1]
    by_cases hd : r'.cur = []
    · have : readRun T p fuel r' = r' := by cases fuel <;> simp [readRun, hd]
      rw [this, hd, elems_nil]
      simp [hrule, c2, c3, c4]
    · obtain ⟨i1, i2, i3, i4, i5⟩ := ih r' (by rw [c1, List.length_drop]; omega) hd hrule
      refine ⟨i1, ?_, ?_, ?_, i5⟩
      · rw [i2, c3]; simp only [List.length_cons]; omega
      · rw [i3, c3]; simp only [List.length_cons]; omega
      · rw [List.getLast?_cons, i4]; simp

theorem readIdx_take (h : Describes T L) : ∀ (k : Nat) (s : List Nat), k ≤ (elems T s).length →
    readIdx T k s = (elems T s).take k := by
  intro k
  induction k with
  | zero => intro s _; simp [readIdx]
  | succ k ih =>
    intro s hk
    have hs : s ≠ [] := by rintro rfl; simp [elems_nil] at hk
    rw [elems_cons h s hs] at hk ⊢
    simp only [readIdx, List.take_succ_cons]
    rw [ih _ (by simpa using hk)]

/-- `R`: the weights of the elements that are still to come. -/
def Rem (T : Tables) (L : Locale) (p : Nat) (s : Seq) (cur : List Nat) (R : List (List Nat)) : Prop :=
  RuleOk T L s.rule ∧
  ((s.bstop = none ∧ s.fwd ≤ s.highest ∧ s.buffer = [] ∧
      ((L.backward p = false ∧ R = (elems T cur).map (weightAt T p)) ∨
       (L.backward p = true ∧ s.us = cur ∧ R = ((elems T cur).map (weightAt T p)).reverse))) ∨
   (∃ H, s.bstop = some H ∧ s.bidx = some (H + s.buffer.length) ∧ s.fwd = s.highest ∧ cur = s.us ∧
      R = (s.buffer.map (weightAt T p)).reverse))

theorem turn_spec (h : Describes T L) (p : Nat) (hp : p < T.nrules) (s : Seq) (cur : List Nat) (R : List (List Nat))
    (hr : Rem T L p s cur R) :
    match (generalizing := false) R with
    | [] => (turn T p s cur).1 = true ∧ (turn T p s cur).2.1.weights = s.weights ∧ RuleOk T L (turn T p s cur).2.1.rule
    | w :: R' => (turn T p s cur).1 = false ∧ weightAt T p (turn T p s cur).2.1.idx = w ∧
        Rem T L p (turn T p s cur).2.1 (turn T p s cur).2.2 R' ∧ (turn T p s cur).2.1.offset = s.offset := by
  obtain ⟨hrule, hr⟩ := hr
  rcases hr with ⟨hs, hf, hbuf, hd⟩ | ⟨H, hs, hi, hf, hcur, hR⟩
  · rcases hd with ⟨hb, hR⟩ | ⟨hb, hus, hR⟩
    · by_cases hc : cur = []
      · subst hc
        rw [elems_nil] at hR
        subst hR
        simp only [List.map_nil]
        have hrr : readRun T p (([] : List Nat).length + 1) ⟨[], s.idx, s.idx, s.highest, s.fwd, s.rule⟩ =
            ⟨[], s.idx, s.idx, s.highest, s.fwd, s.rule⟩ := by simp [readRun]
        unfold turn
        simp only [hs, hrr]
        rw [if_pos hf, if_pos (by omega)]
        exact ⟨rfl, rfl, hrule⟩
      · rw [elems_cons h cur hc] at hR
        subst hR
        simp only [List.map_cons]
        have hrr := readRun_forward h p hp hb cur.length ⟨cur, s.idx, s.idx, s.highest, s.fwd, s.rule⟩ hc
        unfold turn
        simp only [hs, hrr]
        rw [if_pos (Nat.le_refl _), if_neg (by omega)]
        refine ⟨rfl, rfl, ⟨?_, Or.inl ⟨rfl, by simp, hbuf, Or.inl ⟨hb, rfl⟩⟩⟩, rfl⟩
        simp only
        split
        · intro p hp; exact h.position cur hc p hp
        · exact hrule
    · by_cases hc : cur = []
      · subst hc
        rw [elems_nil] at hR
        subst hR
        simp only [List.map_nil, List.reverse_nil]
        have hrr : readRun T p (([] : List Nat).length + 1) ⟨[], s.idx, s.idx, s.highest, s.fwd, s.rule⟩ =
            ⟨[], s.idx, s.idx, s.highest, s.fwd, s.rule⟩ := by simp [readRun]
        unfold turn
        simp only [hs, hrr]
        rw [if_pos hf, if_pos (by omega)]
        exact ⟨rfl, rfl, hrule⟩
      · obtain ⟨i1, i2, i3, i4, i5⟩ := readRun_backward h p hp hb (cur.length + 1)
          ⟨cur, s.idx, s.idx, s.highest, s.fwd, s.rule⟩ (by simp) hc hrule
        simp only at i2 i3 i4
        obtain ⟨r, hrr⟩ : ∃ r, readRun T p (cur.length + 1) ⟨cur, s.idx, s.idx, s.highest, s.fwd, s.rule⟩ = r := ⟨_, rfl⟩
        rw [hrr] at i1 i2 i3 i4 i5
        obtain ⟨k, hk⟩ : ∃ k, (elems T cur).length = k + 1 :=
          ⟨(elems T cur).length - 1, by rw [elems_cons h cur hc]; simp⟩
        have hsplit : elems T cur = (elems T cur).take k ++ [r.idx] := by
          have hne : elems T cur ≠ [] := by intro h0; rw [h0] at hk; simp at hk
          have hl : (elems T cur).getLast hne = r.idx := by
            rw [List.getLast?_eq_some_getLast hne] at i4; exact Option.some.inj i4
          have := List.dropLast_append_getLast hne
          rw [hl, List.dropLast_eq_take, hk] at this
          exact this.symm
        rw [hsplit] at hR
        simp only [List.map_append, List.map_cons, List.map_nil, List.reverse_append, List.reverse_cons, List.reverse_nil,
          List.nil_append, List.cons_append] at hR
        subst hR
        simp only
        rw [hk] at i2 i3
        unfold turn
        simp only [hs, hrr]
        rw [if_neg (show ¬ s.highest ≥ r.fwd by omega)]
        have e1 : decide (r.highest > r.fwd) = false := by simp; omega
        simp only [e1, Bool.false_eq_true, if_false]
        rw [if_pos (show r.fwd > s.highest by omega)]
        have e2 : r.fwd - 1 - s.highest = k := by omega
        rw [e2, hus, readIdx_take h k cur (by omega)]
        refine ⟨trivial, trivial, ⟨i5, Or.inr ⟨s.highest, rfl, ?_, ?_, rfl, ?_⟩⟩, trivial⟩
        · simp only [List.length_take, hk]; congr 1; omega
        · simp only; omega
        · rfl
  · cases hbuf : s.buffer with
    | nil =>
      rw [hbuf] at hR hi
      simp only [List.map_nil, List.reverse_nil] at hR
      subst hR
      simp only
      unfold turn
      simp only [hs]
      rw [if_pos (by simpa using hi), if_neg (by omega)]
      exact ⟨rfl, rfl, hrule⟩
    | cons x xs =>
      have hne : s.buffer ≠ [] := by simp [hbuf]
      have hsplit := List.dropLast_append_getLast hne
      rw [← hsplit] at hR
      simp only [List.map_append, List.map_cons, List.map_nil, List.reverse_append, List.reverse_cons, List.reverse_nil,
          List.nil_append, List.cons_append] at hR
      subst hR
      simp only
      have hl : 0 < s.buffer.length := List.length_pos_iff.2 hne
      unfold turn
      simp only [hs]
      rw [if_neg (by rw [hi]; simp; omega)]
      refine ⟨rfl, ?_, ⟨hrule, Or.inr ⟨H, rfl, ?_, hf, hcur, rfl⟩⟩, rfl⟩
      · simp only [List.getLast?_eq_some_getLast hne]; rfl
      · rw [hi]; simp only [Option.map_some, List.length_dropLast]; congr 1; omega

/-- The walk: the next weights that are not empty, and the distance. -/
theorem nextLoop_spec (h : Describes T L) (p : Nat) (hp : p < T.nrules) : ∀ (R : List (List Nat)) (fuel : Nat) (s : Seq) (cur : List Nat),
    R.length + 2 ≤ fuel → s.weights = [] → Rem T L p s cur R →
    match gaps s.offset R with
    | [] => ∃ s', nextLoop T p fuel s cur = some (false, s') ∧ s'.weights = [] ∧ RuleOk T L s'.rule
    | (g, w) :: _ => ∃ s' R', nextLoop T p fuel s cur = some (true, s') ∧ s'.weights = w ∧ w ≠ [] ∧ s'.offset = g ∧
        Rem T L p s' s'.us R' ∧ gaps s.offset R = (g, w) :: gaps 0 R' ∧ R'.length < R.length ∧ R.flatten = w ++ R'.flatten := by
  intro R
  induction R with
  | nil =>
    intro fuel s cur hf hw hr
    obtain ⟨fuel, rfl⟩ : ∃ f, fuel = f + 1 := ⟨fuel - 1, by omega⟩
    have hr' : Rem T L p { s with offset := s.offset + 1 } cur [] := hr
    have ht := turn_spec h p hp _ cur [] hr'
    simp only at ht
    simp only [gaps]
    refine ⟨(turn T p { s with offset := s.offset + 1 } cur).2.1, ?_, ?_, ht.2.2⟩
    · unfold nextLoop
      rw [if_neg (by simp [hw])]
      simp only
      rw [if_pos ht.1]
    · rw [ht.2.1, hw]
  | cons w R ih =>
    intro fuel s cur hf hw hr
    obtain ⟨fuel, rfl⟩ : ∃ f, fuel = f + 1 := ⟨fuel - 1, by omega⟩
    have hr' : Rem T L p { s with offset := s.offset + 1 } cur (w :: R) := hr
    have ht := turn_spec h p hp _ cur (w :: R) hr'
    simp only at ht
    obtain ⟨t1, t2, t3, t4⟩ := ht
    obtain ⟨t, htt⟩ : ∃ t, turn T p { s with offset := s.offset + 1 } cur = t := ⟨_, rfl⟩
    rw [htt] at t1 t2 t3 t4
    have hstep : nextLoop T p (fuel + 1) s cur = nextLoop T p fuel { t.2.1 with weights := w } t.2.2 := by
      conv => lhs; unfold nextLoop
      rw [if_neg (by simp [hw])]
      simp only [htt, t1, Bool.false_eq_true, if_false, t2]
    rw [hstep]
    simp only [List.length_cons] at hf
    by_cases hw0 : w = []
    · subst hw0
      have := ih fuel { t.2.1 with weights := [] } t.2.2 (by omega) rfl t3
      have ho : ({ t.2.1 with weights := [] } : Seq).offset = s.offset + 1 := t4
      rw [ho] at this
      simp only [gaps, if_true, List.flatten_cons, List.nil_append]
      cases hg : gaps (s.offset + 1) R with
      | nil =>
        rw [hg] at this
        obtain ⟨s', k1⟩ := this
        exact ⟨s', k1⟩
      | cons q l =>
        rw [hg] at this
        obtain ⟨s', R', k1, k2, k3, k4, k5, k6, k7, k8⟩ := this
        exact ⟨s', R', k1, k2, k3, k4, k5, k6, by simp only [List.length_cons]; omega, k8⟩
    · simp only [gaps, hw0, if_false]
      refine ⟨{ t.2.1 with weights := w, us := t.2.2 }, R, ?_, rfl, hw0, t4, ?_, rfl, by simp, by simp⟩
      · obtain ⟨fuel, rfl⟩ : ∃ f, fuel = f + 1 := ⟨fuel - 1, by omega⟩
        unfold nextLoop
        simp [hw0]
      · obtain ⟨hrule, hh⟩ := t3
        refine ⟨hrule, ?_⟩
        rcases hh with ⟨a1, a2, a3, a4⟩ | ⟨H, a1, a2, a3, a4, a5⟩
        · refine Or.inl ⟨a1, a2, a3, ?_⟩
          rcases a4 with ⟨b1, b2⟩ | ⟨b1, b2, b3⟩
          · exact Or.inl ⟨b1, b2⟩
          · exact Or.inr ⟨b1, rfl, b3⟩
        · exact Or.inr ⟨H, a1, a2, a3, rfl, a5⟩

theorem rem_length (h : Describes T L) (p : Nat) (s : Seq) (R : List (List Nat)) (hr : Rem T L p s s.us R) :
    R.length ≤ s.us.length + s.buffer.length := by
  obtain ⟨_, hh⟩ := hr
  have hl := elems_length h _ s.us (Nat.le_refl _)
  rcases hh with ⟨a1, a2, a3, a4⟩ | ⟨H, a1, a2, a3, a4, a5⟩
  · rcases a4 with ⟨b1, b2⟩ | ⟨b1, b2, b3⟩
    · subst b2; simp; omega
    · subst b3; simp; omega
  · subst a5; simp

theorem next_spec (h : Describes T L) (p : Nat) (hp : p < T.nrules) (R : List (List Nat)) (s : Seq) (hw : s.weights = [])
    (hr : Rem T L p s s.us R) :
    match gaps 0 R with
    | [] => ∃ s', next T p s = some (false, s') ∧ s'.weights = [] ∧ RuleOk T L s'.rule
    | (g, w) :: _ => ∃ s' R', next T p s = some (true, s') ∧ s'.weights = w ∧ w ≠ [] ∧ s'.offset = g ∧
        Rem T L p s' s'.us R' ∧ gaps 0 R = (g, w) :: gaps 0 R' ∧ R'.length < R.length ∧ R.flatten = w ++ R'.flatten := by
  have := nextLoop_spec h p hp R (s.us.length + s.buffer.length + 3) { s with offset := 0 } s.us
    (by have := rem_length h p s R hr; omega) hw hr
  exact this

theorem next_pending (p : Nat) (s : Seq) (hw : s.weights ≠ []) : next T p s = some (true, { s with offset := 0 }) := by
  unfold next nextLoop
  simp [hw]

/-! ### Comparison -/

theorem append_lt (c x y : List Nat) : c ++ x < c ++ y ↔ x < y := by
  induction c with
  | nil => rfl
  | cons a c ih => simp [List.cons_lt_cons_iff, ih]

theorem mismatch_spec (x y : List Nat) : ∃ c, x = c ++ (mismatch x y).1 ∧ y = c ++ (mismatch x y).2 ∧
    ∀ a l b m, (mismatch x y).1 = a :: l → (mismatch x y).2 = b :: m → a ≠ b := by
  induction x generalizing y with
  | nil => cases y <;> exact ⟨[], rfl, rfl, by simp [mismatch]⟩
  | cons a x ih =>
    cases y with
    | nil => exact ⟨[], rfl, rfl, by simp [mismatch]⟩
    | cons b y =>
      by_cases h : a = b
      · subst h
        obtain ⟨c, h1, h2, h3⟩ := ih y
        refine ⟨a :: c, ?_, ?_, ?_⟩
        · simp only [mismatch, if_true, List.cons_append]; rw [← h1]
        · simp only [mismatch, if_true, List.cons_append]; rw [← h2]
        · simpa only [mismatch, if_true] using h3
      · refine ⟨[], by simp [mismatch, h], by simp [mismatch, h], ?_⟩
        simp only [mismatch, h, if_false]
        intro a' l b' m e1 e2
        cases e1; cases e2; exact h

/-- The sign of `r` is the order of `x` and `y`. -/
def Sign {α : Type} [LT α] (r : Int) (x y : α) : Prop := (r < 0 ∧ x < y) ∨ (r = 0 ∧ x = y) ∨ (r > 0 ∧ y < x)

/-- What a pass leaves behind. -/
def PassOut (T : Tables) (L : Locale) {α : Type} [LT α] (x y : α) : Option End → Prop
  | some (.ret r) => r ≠ 0 ∧ Sign r x y
  | some (.equal s1 s2) => x = y ∧ RuleOk T L s1.rule ∧ RuleOk T L s2.rule
  | none => False

theorem clamp_pos {x : Int} (h : x > 0) : clamp x = 1 := if_pos h
theorem clamp_neg {x : Int} (h : x < 0) : clamp x = -1 := by unfold clamp; rw [if_neg (by omega), if_pos h]

/-- One step of the walk, whether or not weights are pending (`F`: all weights to come). -/
theorem next_flat (h : Describes T L) (p : Nat) (hp : p < T.nrules) (s : Seq) (R : List (List Nat)) (hr : Rem T L p s s.us R) :
    (s.weights ++ R.flatten = [] ∧ ∃ s', next T p s = some (false, s') ∧ s'.weights = [] ∧ RuleOk T L s'.rule) ∨
    ∃ s' R', next T p s = some (true, s') ∧ s'.weights ≠ [] ∧ Rem T L p s' s'.us R' ∧
      s.weights ++ R.flatten = s'.weights ++ R'.flatten ∧
      2 * R'.length + 1 ≤ 2 * R.length + (if s.weights = [] then 0 else 1) := by
  by_cases hw : s.weights = []
  · have := next_spec h p hp R s hw hr
    cases hg : gaps 0 R with
    | nil =>
      rw [hg] at this
      left
      refine ⟨?_, this⟩
      rw [hw, List.nil_append]
      clear this hr
      have : ∀ (R : List (List Nat)) g, gaps g R = [] → R.flatten = [] := by
        intro R
        induction R with
        | nil => simp
        | cons w R ih =>
          intro g hg
          by_cases hw : w = []
          · subst hw; simp only [gaps, if_true] at hg; simpa using ih _ hg
          · simp [gaps, hw] at hg
      exact this R 0 hg
    | cons q l =>
      rw [hg] at this
      obtain ⟨s', R', k1, k2, k3, k4, k5, k6, k7, k8⟩ := this
      right
      exact ⟨s', R', k1, by rw [k2]; exact k3, k5, by rw [hw, k2, List.nil_append, k8], by simp only [hw, if_true]; omega⟩
  · right
    refine ⟨{ s with offset := 0 }, R, next_pending p s hw, hw, hr, rfl, by simp [hw]⟩

theorem passLoop_flat (h : Describes T L) (p : Nat) (hp : p < T.nrules) : ∀ (fuel : Nat) (s1 s2 : Seq) (R1 R2 : List (List Nat)),
    2 * (R1.length + R2.length) + (if s1.weights = [] then 0 else 1) + (if s2.weights = [] then 0 else 1) < fuel →
    Rem T L p s1 s1.us R1 → Rem T L p s2 s2.us R2 →
    PassOut T L (s1.weights ++ R1.flatten) (s2.weights ++ R2.flatten) (passLoop T p false fuel s1 s2) := by
  intro fuel
  induction fuel with
  | zero => intro s1 s2 R1 R2 h1; omega
  | succ fuel ih =>
    intro s1 s2 R1 R2 hf hr1 hr2
    rcases next_flat h p hp s1 R1 hr1 with ⟨z1, t1, e1, w1, ru1⟩ | ⟨t1, Q1, e1, w1, q1, f1, l1⟩ <;>
    rcases next_flat h p hp s2 R2 hr2 with ⟨z2, t2, e2, w2, ru2⟩ | ⟨t2, Q2, e2, w2, q2, f2, l2⟩
    · unfold passLoop
      simp only [e1, e2, true_or, if_true, w1, w2, List.length_nil, Int.sub_self, ne_eq, not_true, if_false]
      exact ⟨by rw [z1, z2], ru1, ru2⟩
    · have hlen : 0 < t2.weights.length := List.length_pos_iff.2 w2
      unfold passLoop
      simp only [e1, e2, true_or, if_true, w1, List.length_nil]
      rw [if_pos (by omega), clamp_neg (by omega)]
      refine ⟨by decide, Or.inl ⟨by decide, ?_⟩⟩
      rw [z1, f2]
      cases hh : t2.weights with
      | nil => exact absurd hh w2
      | cons a l => simp
    · have hlen : 0 < t1.weights.length := List.length_pos_iff.2 w1
      unfold passLoop
      simp only [e1, e2, or_true, if_true, w2, List.length_nil]
      rw [if_pos (by omega), clamp_pos (by omega)]
      refine ⟨by decide, Or.inr (Or.inr ⟨by decide, ?_⟩)⟩
      rw [z2, f1]
      cases hh : t1.weights with
      | nil => exact absurd hh w1
      | cons a l => simp
    · unfold passLoop
      simp only [e1, e2, Bool.true_eq_false, or_self, if_false]
      obtain ⟨c, m1, m2, m3⟩ := mismatch_spec t1.weights t2.weights
      rw [f1, f2]
      unfold compare
      simp only [Bool.false_eq_true, false_and, if_false]
      have hF1 : t1.weights ++ Q1.flatten = c ++ ((mismatch t1.weights t2.weights).1 ++ Q1.flatten) := by
        rw [← List.append_assoc, ← m1]
      have hF2 : t2.weights ++ Q2.flatten = c ++ ((mismatch t1.weights t2.weights).2 ++ Q2.flatten) := by
        rw [← List.append_assoc, ← m2]
      obtain ⟨⟨r1, r2⟩, hq⟩ : ∃ q, mismatch t1.weights t2.weights = q := ⟨_, rfl⟩
      rw [hq] at m1 m2 m3 hF1 hF2
      rw [hF1, hF2, hq]
      simp only at m1 m2 m3
      cases r1 with
      | cons x xs =>
        cases r2 with
        | cons y ys =>
          have hxy := m3 x xs y ys rfl rfl
          simp only
          rw [if_pos (by omega)]
          refine ⟨by omega, ?_⟩
          rcases Nat.lt_or_gt_of_ne hxy with hlt | hgt
          · exact Or.inl ⟨by omega, by rw [append_lt]; simp [List.cons_lt_cons_iff, hlt]⟩
          · exact Or.inr (Or.inr ⟨by omega, by rw [append_lt]; simp [List.cons_lt_cons_iff, hgt]⟩)
        | nil =>
          simp only [ne_eq, not_true, if_false]
          have := ih { t1 with weights := x :: xs } { t2 with weights := [] } Q1 Q2
            (by simp only [if_true]; rw [if_neg (by simp)]; omega) q1 q2
          simp only at this
          have : PassOut T L (c ++ (x :: xs ++ Q1.flatten)) (c ++ ([] ++ Q2.flatten)) (passLoop T p false fuel { t1 with weights := x :: xs } { t2 with weights := [] }) := by
            generalize passLoop T p false fuel { t1 with weights := x :: xs } { t2 with weights := [] } = o at this ⊢
            cases o with
            | none => exact this
            | some e =>
              cases e with
              | ret r =>
                refine ⟨this.1, ?_⟩
                rcases this.2 with k | k | k
                · exact Or.inl ⟨k.1, (append_lt _ _ _).2 k.2⟩
                · exact absurd k.1 this.1
                · exact Or.inr (Or.inr ⟨k.1, (append_lt _ _ _).2 k.2⟩)
              | equal u v => exact ⟨by rw [this.1], this.2⟩
          exact this
      | nil =>
        have : PassOut T L (c ++ ([] ++ Q1.flatten)) (c ++ (r2 ++ Q2.flatten)) (passLoop T p false fuel { t1 with weights := [] } { t2 with weights := r2 }) := by
          have := ih { t1 with weights := [] } { t2 with weights := r2 } Q1 Q2
            (by simp only [if_true]; split <;> omega) q1 q2
          simp only at this
          generalize passLoop T p false fuel { t1 with weights := [] } { t2 with weights := r2 } = o at this ⊢
          cases o with
          | none => exact this
          | some e =>
            cases e with
            | ret r =>
              refine ⟨this.1, ?_⟩
              rcases this.2 with k | k | k
              · exact Or.inl ⟨k.1, (append_lt _ _ _).2 k.2⟩
              · exact absurd k.1 this.1
              · exact Or.inr (Or.inr ⟨k.1, (append_lt _ _ _).2 k.2⟩)
            | equal u v => exact ⟨by rw [this.1], this.2⟩
        cases r2 <;> simpa only [ne_eq, not_true, if_false] using this

/-- The keys of a pass that counts ignored elements. -/
abbrev pairs (R : List (List Nat)) : List (List Nat) := (gaps 0 R).map fun q => q.1 :: q.2

theorem passLoop_pos (h : Describes T L) (p : Nat) (hp : p < T.nrules) : ∀ (fuel : Nat) (s1 s2 : Seq) (R1 R2 : List (List Nat)),
    R1.length < fuel → s1.weights = [] → s2.weights = [] →
    Rem T L p s1 s1.us R1 → Rem T L p s2 s2.us R2 →
    PassOut T L (pairs R1) (pairs R2) (passLoop T p true fuel s1 s2) := by
  intro fuel
  induction fuel with
  | zero => intro s1 s2 R1 R2 h1; omega
  | succ fuel ih =>
    intro s1 s2 R1 R2 hf hw1 hw2 hr1 hr2
    have n1 := next_spec h p hp R1 s1 hw1 hr1
    have n2 := next_spec h p hp R2 s2 hw2 hr2
    unfold pairs
    cases hg1 : gaps 0 R1 with
    | nil =>
      rw [hg1] at n1
      obtain ⟨t1, e1, w1, ru1⟩ := n1
      cases hg2 : gaps 0 R2 with
      | nil =>
        rw [hg2] at n2
        obtain ⟨t2, e2, w2, ru2⟩ := n2
        unfold passLoop
        simp only [e1, e2, true_or, if_true, w1, w2, List.length_nil, Int.sub_self, ne_eq, not_true, if_false]
        exact ⟨rfl, ru1, ru2⟩
      | cons q l =>
        rw [hg2] at n2
        obtain ⟨t2, Q2, e2, w2, v2, o2, q2, g2, l2, f2⟩ := n2
        have hlen : 0 < t2.weights.length := List.length_pos_iff.2 (by rw [w2]; exact v2)
        unfold passLoop
        simp only [e1, e2, true_or, if_true, w1, List.length_nil]
        rw [if_pos (by omega), clamp_neg (by omega)]
        exact ⟨by decide, Or.inl ⟨by decide, by simp⟩⟩
    | cons q1 l1 =>
      rw [hg1] at n1
      obtain ⟨t1, Q1, e1, w1, v1, o1, r1, g1, le1, f1⟩ := n1
      cases hg2 : gaps 0 R2 with
      | nil =>
        rw [hg2] at n2
        obtain ⟨t2, e2, w2, ru2⟩ := n2
        have hlen : 0 < t1.weights.length := List.length_pos_iff.2 (by rw [w1]; exact v1)
        unfold passLoop
        simp only [e1, e2, or_true, if_true, w2, List.length_nil]
        rw [if_pos (by omega), clamp_pos (by omega)]
        exact ⟨by decide, Or.inr (Or.inr ⟨by decide, by simp⟩)⟩
      | cons q2 l2 =>
        rw [hg2] at n2
        obtain ⟨t2, Q2, e2, w2, v2, o2, r2, g2, le2, f2⟩ := n2
        obtain ⟨gg1, ww1⟩ := q1
        obtain ⟨gg2, ww2⟩ := q2
        simp only at w1 w2 o1 o2 v1 v2 f1 f2
        simp only [List.cons.injEq, Prod.mk.injEq] at g1 g2
        rw [g1.2, g2.2]
        simp only [List.map_cons]
        unfold passLoop
        simp only [e1, e2, Bool.true_eq_false, or_self, if_false]
        unfold compare
        simp only [true_and]
        subst o1
        subst o2
        by_cases hgg : t1.offset = t2.offset
        · rw [if_neg (show ¬ t1.offset ≠ t2.offset by simp [hgg])]
          obtain ⟨c, m1, m2, m3⟩ := mismatch_spec t1.weights t2.weights
          obtain ⟨⟨x1, x2⟩, hq⟩ : ∃ q, mismatch t1.weights t2.weights = q := ⟨_, rfl⟩
          rw [hq] at m1 m2 m3
          rw [hq]
          simp only at m1 m2 m3
          rw [w1] at m1
          rw [w2] at m2
          have hrec : x1 = [] → x2 = [] → PassOut T L ((t1.offset :: ww1) :: pairs Q1) ((t2.offset :: ww2) :: pairs Q2)
              (passLoop T p true fuel { t1 with weights := x1 } { t2 with weights := x2 }) := by
            intro k1 k2
            subst k1; subst k2
            simp only [List.append_nil] at m1 m2
            have := ih { t1 with weights := [] } { t2 with weights := [] } Q1 Q2 (by omega) rfl rfl r1 r2
            rw [m1, m2]
            generalize passLoop T p true fuel { t1 with weights := [] } { t2 with weights := [] } = o at this ⊢
            cases o with
            | none => exact this
            | some e =>
              cases e with
              | ret r =>
                refine ⟨this.1, ?_⟩
                rcases this.2 with k | k | k
                · exact Or.inl ⟨k.1, List.cons_lt_cons_iff.2 (Or.inr ⟨by rw [hgg], k.2⟩)⟩
                · exact absurd k.1 this.1
                · exact Or.inr (Or.inr ⟨k.1, List.cons_lt_cons_iff.2 (Or.inr ⟨by rw [hgg], k.2⟩)⟩)
              | equal u v => exact ⟨by rw [this.1, hgg], this.2⟩
          have hcmp : ∀ {u v : List Nat}, u < v → t1.offset :: (c ++ u) < t2.offset :: (c ++ v) := by
            intro u v huv
            exact List.cons_lt_cons_iff.2 (Or.inr ⟨hgg, (append_lt _ _ _).2 huv⟩)
          have hcmp' : ∀ {u v : List Nat}, u < v → t2.offset :: (c ++ u) < t1.offset :: (c ++ v) := by
            intro u v huv
            exact List.cons_lt_cons_iff.2 (Or.inr ⟨hgg.symm, (append_lt _ _ _).2 huv⟩)
          cases x1 with
          | cons x xs =>
            cases x2 with
            | cons y ys =>
              have hxy := m3 x xs y ys rfl rfl
              simp only
              rw [if_pos (by omega)]
              refine ⟨by omega, ?_⟩
              rw [m1, m2]
              rcases Nat.lt_or_gt_of_ne hxy with hlt | hgt
              · exact Or.inl ⟨by omega, List.cons_lt_cons_iff.2 (Or.inl (hcmp (by simp [List.cons_lt_cons_iff, hlt])))⟩
              · exact Or.inr (Or.inr ⟨by omega, List.cons_lt_cons_iff.2 (Or.inl (hcmp' (by simp [List.cons_lt_cons_iff, hgt])))⟩)
            | nil =>
              simp only [if_true, w1, w2, m1, m2, List.length_append, List.length_cons, List.length_nil]
              rw [if_pos (by omega)]
              exact ⟨by omega, Or.inr (Or.inr ⟨by omega, List.cons_lt_cons_iff.2 (Or.inl (hcmp' (by simp)))⟩)⟩
          | nil =>
            cases x2 with
            | cons y ys =>
              simp only [if_true, w1, w2, m1, m2, List.length_append, List.length_cons, List.length_nil]
              rw [if_pos (by omega)]
              exact ⟨by omega, Or.inl ⟨by omega, List.cons_lt_cons_iff.2 (Or.inl (hcmp (by simp)))⟩⟩
            | nil =>
              simp only [if_true, w1, w2, m1, m2, List.length_append, List.length_nil]
              rw [if_neg (by omega)]
              have := hrec rfl rfl
              rw [m1, m2] at this
              exact this
        · rw [if_pos hgg]
          by_cases hlt : t1.offset > t2.offset
          · simp only [hlt, if_true]
            rw [if_pos (by decide)]
            exact ⟨by decide, Or.inr (Or.inr ⟨by decide, List.cons_lt_cons_iff.2 (Or.inl (List.cons_lt_cons_iff.2 (Or.inl hlt)))⟩)⟩
          · simp only [hlt, if_false]
            rw [if_pos (by decide)]
            exact ⟨by decide, Or.inl ⟨by decide, List.cons_lt_cons_iff.2 (Or.inl (List.cons_lt_cons_iff.2 (Or.inl (by omega))))⟩⟩

theorem map_single_lt (x y : List Nat) : (x.map fun a => [a]) < (y.map fun a => [a]) ↔ x < y := by
  induction x generalizing y with
  | nil => cases y <;> simp
  | cons a x ih =>
    cases y with
    | nil => simp
    | cons b y => simp [List.cons_lt_cons_iff, ih]

theorem map_single_inj (x y : List Nat) : (x.map fun a => [a]) = (y.map fun a => [a]) ↔ x = y :=
  ⟨fun h => List.map_injective_iff.2 (fun a b h => by simpa using h) h, fun h => by rw [h]⟩

theorem rem_start (h : Describes T L) (p : Nat) (hp : p < T.nrules) (s : Seq) (a : List Nat) (hr : RuleOk T L s.rule) :
    Rem T L p { s.passReset with us := a } a (level T L p a) := by
  refine ⟨hr, Or.inl ⟨rfl, Nat.zero_le _, rfl, ?_⟩⟩
  unfold level
  rw [← map_weightAt h p hp]
  cases hb : L.backward p
  · left; exact ⟨rfl, by simp⟩
  · right; exact ⟨rfl, rfl, by simp⟩

theorem level_length (h : Describes T L) (p : Nat) (a : List Nat) : (level T L p a).length ≤ a.length := by
  have := elems_length h _ a (Nat.le_refl _)
  unfold level
  simp only
  split <;> simp [this]

theorem pass_spec (h : Describes T L) (p : Nat) (hp : p < T.nrules) (a b : List Nat) (s1 s2 : Seq) (rule : Nat)
    (h1 : RuleOk T L s1.rule) (h2 : RuleOk T L s2.rule) (hrule : RuleOk T L rule) :
    PassOut T L (key T L p a) (key T L p b) (passLoop T p (T.position rule p) (2 * (a.length + b.length) + 1)
      { s1.passReset with us := a } { s2.passReset with us := b }) := by
  have la := level_length h p a
  have lb := level_length h p b
  have ra := rem_start h p hp s1 a h1
  have rb := rem_start h p hp s2 b h2
  rw [hrule p hp]
  unfold key
  cases hpos : L.position p
  · have := passLoop_flat h p hp (2 * (a.length + b.length) + 1) { s1.passReset with us := a } { s2.passReset with us := b }
      (level T L p a) (level T L p b) (by simp only [Seq.passReset, if_true]; omega) ra rb
    simp only [Seq.passReset, List.nil_append] at this
    simp only [Bool.false_eq_true, if_false, Seq.passReset]
    generalize passLoop T p false (2 * (a.length + b.length) + 1) _ _ = o at this ⊢
    cases o with
    | none => exact this
    | some e =>
      cases e with
      | ret r =>
        refine ⟨this.1, ?_⟩
        rcases this.2 with k | k | k
        · exact Or.inl ⟨k.1, (map_single_lt _ _).2 k.2⟩
        · exact absurd k.1 this.1
        · exact Or.inr (Or.inr ⟨k.1, (map_single_lt _ _).2 k.2⟩)
      | equal u v => exact ⟨by rw [this.1], this.2⟩
  · simp only [if_true]
    exact passLoop_pos h p hp _ _ _ _ _ (by omega) rfl rfl ra rb

theorem passes_spec (h : Describes T L) (a b : List Nat) : ∀ (ps : List Nat) (s1 s2 : Seq) (rule : Nat),
    (∀ p ∈ ps, p < T.nrules) → RuleOk T L s1.rule → RuleOk T L s2.rule → RuleOk T L rule →
    ∃ r, passes T a b ps rule s1 s2 = some r ∧ Sign r (ps.map fun p => key T L p a) (ps.map fun p => key T L p b) := by
  intro ps
  induction ps with
  | nil => intro s1 s2 rule _ _ _ _; exact ⟨0, rfl, Or.inr (Or.inl ⟨rfl, rfl⟩)⟩
  | cons p ps ih =>
    intro s1 s2 rule hps h1 h2 h3
    have := pass_spec h p (hps p (by simp)) a b s1 s2 rule h1 h2 h3
    unfold passes
    generalize passLoop T p (T.position rule p) (2 * (a.length + b.length) + 1) _ _ = o at this ⊢
    cases o with
    | none => exact this.elim
    | some e =>
      cases e with
      | ret r =>
        refine ⟨r, rfl, ?_⟩
        simp only [List.map_cons]
        rcases this.2 with k | k | k
        · exact Or.inl ⟨k.1, List.cons_lt_cons_iff.2 (Or.inl k.2)⟩
        · exact absurd k.1 this.1
        · exact Or.inr (Or.inr ⟨k.1, List.cons_lt_cons_iff.2 (Or.inl k.2)⟩)
      | equal u v =>
        obtain ⟨k1, k2, k3⟩ := this
        simp only
        by_cases hab : p = 0 ∧ a = b
        · rw [if_pos hab, hab.2]
          exact ⟨0, rfl, Or.inr (Or.inl ⟨rfl, rfl⟩)⟩
        · rw [if_neg hab]
          obtain ⟨r, e1, e2⟩ := ih u v u.rule (fun p hp => hps p (by simp [hp])) k2 k3 k2
          refine ⟨r, e1, ?_⟩
          simp only [List.map_cons, k1]
          rcases e2 with k | k | k
          · exact Or.inl ⟨k.1, List.cons_lt_cons_iff.2 (Or.inr ⟨rfl, k.2⟩)⟩
          · exact Or.inr (Or.inl ⟨k.1, by rw [k.2]⟩)
          · exact Or.inr (Or.inr ⟨k.1, List.cons_lt_cons_iff.2 (Or.inr ⟨rfl, k.2⟩)⟩)

/-- **strcoll and wcscoll.** The sign of the result is the order of the keys of the strings. -/
theorem strcoll_partial (h : Describes T L) (hn : 0 < T.nrules) (a b : List Nat) : ∃ r, strcoll T a b = some r ∧
    (r < 0 ↔ sortKey T L a < sortKey T L b) ∧ (r = 0 ↔ sortKey T L a = sortKey T L b) ∧
    (0 < r ↔ sortKey T L b < sortKey T L a) := by
  suffices hs : ∃ r, strcoll T a b = some r ∧ Sign r (sortKey T L a) (sortKey T L b) by
    obtain ⟨r, h1, h2⟩ := hs
    refine ⟨r, h1, ?_⟩
    rcases h2 with ⟨k1, k2⟩ | ⟨k1, k2⟩ | ⟨k1, k2⟩
    · exact ⟨⟨fun _ => k2, fun _ => k1⟩, ⟨fun h => by omega, fun h => by rw [h] at k2; exact absurd k2 (lt_irrefl _)⟩,
        ⟨fun h => by omega, fun h => absurd (lt_trans k2 h) (lt_irrefl _)⟩⟩
    · rw [k2]
      exact ⟨⟨fun h => by omega, fun h => absurd h (lt_irrefl _)⟩, ⟨fun _ => rfl, fun _ => k1⟩,
        ⟨fun h => by omega, fun h => absurd h (lt_irrefl _)⟩⟩
    · exact ⟨⟨fun h => by omega, fun h => absurd (lt_trans k2 h) (lt_irrefl _)⟩,
        ⟨fun h => by omega, fun h => by rw [h] at k2; exact absurd k2 (lt_irrefl _)⟩, ⟨fun _ => k2, fun _ => k1⟩⟩
  have hne : ∀ s, s ≠ [] → ∃ x l, sortKey T L s = x :: l := by
    intro s hs
    obtain ⟨n, hn⟩ : ∃ n, T.nrules = n + 1 := ⟨T.nrules - 1, by omega⟩
    unfold sortKey
    rw [if_neg hs, hn, List.range_succ_eq_map, List.map_cons]
    exact ⟨_, _, rfl⟩
  unfold strcoll
  by_cases ha : a = []
  · subst ha
    by_cases hb : b = []
    · subst hb; exact ⟨0, by simp, Or.inr (Or.inl ⟨rfl, rfl⟩)⟩
    · obtain ⟨x, l, hx⟩ := hne b hb
      refine ⟨-1, by simp [hb], Or.inl ⟨by decide, ?_⟩⟩
      rw [hx]; simp [sortKey]
  · by_cases hb : b = []
    · subst hb
      obtain ⟨x, l, hx⟩ := hne a ha
      refine ⟨1, by simp [ha], Or.inr (Or.inr ⟨by decide, ?_⟩)⟩
      rw [hx]; simp [sortKey]
    · rw [if_neg (by simp [ha, hb])]
      have h0 : RuleOk T L 0 := fun p hp => h.position0 p hp
      obtain ⟨r, e1, e2⟩ := passes_spec h a b (List.range T.nrules) {} {} 0 (fun p hp => List.mem_range.1 hp) h0 h0 h0
      refine ⟨r, e1, ?_⟩
      unfold sortKey
      rw [if_neg ha, if_neg hb]
      exact e2

/-- **strcoll is an order**: it compares every string with itself as equal, is antisymmetric up to the sign and
transitive. -/
theorem strcoll_order (h : Describes T L) (hn : 0 < T.nrules) :
    (∀ a, strcoll T a a = some 0) ∧
    (∀ a b r r', strcoll T a b = some r → strcoll T b a = some r' → (r < 0 ↔ 0 < r') ∧ (r = 0 ↔ r' = 0)) ∧
    (∀ a b c r r' r'', strcoll T a b = some r → strcoll T b c = some r' → strcoll T a c = some r'' →
      (r ≤ 0 → r' ≤ 0 → r'' ≤ 0) ∧ (r ≤ 0 → r' < 0 → r'' < 0) ∧ (r < 0 → r' ≤ 0 → r'' < 0)) := by
  have hle : ∀ a b r, strcoll T a b = some r → (r < 0 ↔ sortKey T L a < sortKey T L b) ∧ (r = 0 ↔ sortKey T L a = sortKey T L b) ∧
      (0 < r ↔ sortKey T L b < sortKey T L a) ∧ (r ≤ 0 ↔ sortKey T L a ≤ sortKey T L b) := by
    intro a b r hr
    obtain ⟨r1, h1, h2, h3, h4⟩ := strcoll_partial h hn a b
    rw [hr] at h1; cases h1
    refine ⟨h2, h3, h4, ?_⟩
    rw [← not_lt (a := sortKey T L b), ← h4]
    omega
  refine ⟨?_, ?_, ?_⟩
  · intro a
    obtain ⟨r, h1, _, h3, _⟩ := strcoll_partial h hn a a
    rw [h1, h3.2 rfl]
  · intro a b r r' h1 h2
    obtain ⟨a1, a2, a3, a4⟩ := hle a b r h1
    obtain ⟨b1, b2, b3, b4⟩ := hle b a r' h2
    exact ⟨a1.trans b3.symm, a2.trans (eq_comm.trans b2.symm)⟩
  · intro a b c r r' r'' h1 h2 h3
    obtain ⟨a1, a2, a3, a4⟩ := hle a b r h1
    obtain ⟨b1, b2, b3, b4⟩ := hle b c r' h2
    obtain ⟨c1, c2, c3, c4⟩ := hle a c r'' h3
    rw [a4, b4, c4, c1, b1, a1]
    exact ⟨le_trans, lt_of_le_of_lt, lt_of_lt_of_le⟩

end Mlibc.Collate
