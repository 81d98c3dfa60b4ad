import Verif.Base

/-
random, srandom, initstate and setstate (options/posix/generic/posix_stdlib.cpp L24-81, L128-176), the drand48 family
(L83-126) and rand_r (options/ansi/generic/stdlib.cpp L106-116). 32-bit words are numbers below 2^32. The static array and
the arrays of the caller are buffers with a name; a buffer is the list of its 32-bit words, and accessing a word behind it
is undefined. Calls are not concurrent. Property C57.
-/
namespace Mlibc.Random
open Mlibc

/-- The state: the buffers, the name of the buffer `x` points into (behind its first word), and `n`, `i`, `j`. L24-37 -/
structure St where
  bufs : Nat → List Nat
  cur : Nat
  n : Nat
  i : Nat
  j : Nat

/-- Reading the word with index `k` behind the first one: `x[k]`. -/
def rdx (st : St) (k : Nat) : Res Nat :=
  match (st.bufs st.cur)[k + 1]? with
  | some v => .ok v
  | none => .ub

/-- Storing a word at an index of a buffer. -/
def wr (st : St) (k v : Nat) : Res St :=
  if k < (st.bufs st.cur).length then
    .ok { st with bufs := fun b => if b = st.cur then (st.bufs b).set k v else st.bufs b }
  else .ub

/-- `x[k] = v` -/
def wrx (st : St) (k v : Nat) : Res St := wr st (k + 1) v

/-- `lcg31`. L40-42 -/
def lcg31 (x : Nat) : Nat := (1103515245 * x + 12345) % 2 ^ 32 &&& 0x7fffffff

/-- `lcg64`. L44-46 -/
def lcg64 (x : Nat) : Nat := (6364136223846793005 * x + 1) % 2 ^ 64

/-- `savestate`: the result is the buffer. L48-51 -/
def savestate (st : St) : Res (Nat × St) :=
  (wr st 0 ((st.n <<< 16 ||| st.i <<< 8 ||| st.j) % 2 ^ 32)).bind fun st => .ok (st.cur, st)

/-- `loadstate`. L53-58 -/
def loadstate (st : St) (b : Nat) : Res St :=
  match (st.bufs b)[0]? with
  | some v => .ok { st with cur := b, n := v >>> 16, i := (v >>> 8) &&& 0xff, j := v &&& 0xff }
  | none => .ub

/-- `random`. L61-76 -/
def random (st : St) : Res (Nat × St) :=
  if st.n = 0 then
    (rdx st 0).bind fun v => (wrx st 0 (lcg31 v)).bind fun st => .ok (lcg31 v, st)
  else
    (rdx st st.i).bind fun a => (rdx st st.j).bind fun b =>
    (wrx st st.i ((a + b) % 2 ^ 32)).bind fun st =>
    let k := ((a + b) % 2 ^ 32) >>> 1
    .ok (k, { st with i := if st.i + 1 = st.n then 0 else st.i + 1, j := if st.j + 1 = st.n then 0 else st.j + 1 })

/-- The loop of `srandom`. L138-141 -/
def fill : Nat → Nat → Nat → St → Res St
  | 0, _, _, st => .ok st
  | c + 1, k, s, st => (wrx st k (lcg64 s >>> 32)).bind fun st => fill c (k + 1) (lcg64 s) st

/-- `srandom`. L128-144 -/
def srandom (st : St) (seed : Nat) : Res St :=
  if st.n = 0 then wrx st 0 seed
  else
    (fill st.n 0 seed { st with i := if st.n = 31 ∨ st.n = 7 then 3 else 1, j := 0 }).bind fun st =>
    (rdx st 0).bind fun v => wrx st 0 (v ||| 1)

/-- `n` for a size in bytes. L151-161 -/
def degree (size : Nat) : Nat :=
  if size < 32 then 0 else if size < 64 then 7 else if size < 128 then 15 else if size < 256 then 31 else 63

/-- `initstate`: `none` is the null pointer. L146-166 -/
def initstate (st : St) (seed b size : Nat) : Res (Option Nat × St) :=
  if size < 8 then .ok (none, st)
  else
    (savestate st).bind fun r =>
    (srandom { r.2 with n := degree size, cur := b } seed).bind fun st =>
    (savestate st).bind fun r' => .ok (some r.1, r'.2)

/-- `setstate`. L168-174 -/
def setstate (st : St) (b : Nat) : Res (Option Nat × St) :=
  (savestate st).bind fun r => (loadstate r.2 b).bind fun st => .ok (some r.1, st)

/-! ## Specification -/

/-- The generator behind the initial words: s(0) is the seed and s(k+1) = 6364136223846793005 s(k) + 1 modulo 2^64. -/
def s (seed : Nat) : Nat → Nat
  | 0 => seed
  | k + 1 => (6364136223846793005 * s seed k + 1) % 2 ^ 64

/-- The initial words: the upper halves of s(1), s(2), …; the first one made odd. -/
def word (seed k : Nat) : Nat :=
  if k = 0 then s seed 1 / 2 ^ 32 / 2 * 2 + 1 else s seed (k + 1) / 2 ^ 32

/-- The lag of the feedback. -/
def sep (n : Nat) : Nat := if n = 31 ∨ n = 7 then 3 else 1

/-- The additive feedback generator of degree `n`: the words in turn, then r(m) = r(m - n) + r(m - sep) modulo 2^32. -/
def r (n seed m : Nat) : Nat :=
  if h : m < n ∨ n = 0 then word seed ((sep n + m) % n)
  else (r n seed (m - n) + r n seed (m - sep n)) % 2 ^ 32
termination_by m
decreasing_by
  · omega
  · have : 0 < sep n := by unfold sep; split <;> omega
    omega

/-- The linear congruential generator used for the smallest buffers. -/
def lcg (seed : Nat) : Nat → Nat
  | 0 => seed
  | t + 1 => (1103515245 * lcg seed t + 12345) % 2 ^ 31

/-- The `t`-th number (counting from 0) of the generator of degree `n`. -/
def value (n seed t : Nat) : Nat := if n = 0 then lcg seed (t + 1) else r n seed (n + t) / 2

/-- What the caller does. -/
inductive Op
  | random
  | srandom (seed : Nat)
  | initstate (seed b size : Nat)
  | setstate (b : Nat)

/-- What the caller sees. -/
inductive Out
  | number (k : Nat)
  | none
  | buffer (b : Option Nat)
  deriving DecidableEq

/-- The degree of the generator for a buffer of `size` bytes, as documented: 8, 32, 64, 128 and 256 bytes are used. -/
def degreeOf (size : Nat) : Nat :=
  if 256 ≤ size then 63 else if 128 ≤ size then 31 else if 64 ≤ size then 15 else if 32 ≤ size then 7 else 0

/-- Every buffer in use holds a generator: its degree, its seed and how many numbers it has produced. -/
structure Abs where
  cur : Nat
  info : Nat → Option (Nat × Nat × Nat)

/-- What the caller may do: `initstate` gets a buffer of the given size, `setstate` one that is in use; seeds are 32 bits wide. -/
def Allowed (size : Nat → Nat) (a : Abs) : Op → Prop
  | .random => True
  | .srandom seed => seed < 2 ^ 32
  | .initstate seed b sz => seed < 2 ^ 32 ∧ sz ≤ 4 * size b
  | .setstate b => (a.info b).isSome

/-- What the operations mean. -/
def Abs.step (a : Abs) : Op → Out × Abs
  | .random =>
    match a.info a.cur with
    | some (n, seed, t) => (.number (value n seed t), { a with info := fun b => if b = a.cur then some (n, seed, t + 1) else a.info b })
    | none => (.none, a)
  | .srandom seed =>
    match a.info a.cur with
    | some (n, _, _) => (.none, { a with info := fun b => if b = a.cur then some (n, seed, 0) else a.info b })
    | none => (.none, a)
  | .initstate seed b sz =>
    if sz < 8 then (.buffer none, a)
    else (.buffer (some a.cur), ⟨b, fun b' => if b' = b then some (degreeOf sz, seed, 0) else a.info b'⟩)
  | .setstate b => (.buffer (some a.cur), { a with cur := b })

/-- The implementation of an operation. -/
def step (st : St) : Op → Res (Out × St)
  | .random => (random st).bind fun x => .ok (.number x.1, x.2)
  | .srandom seed => (srandom st seed).bind fun st => .ok (.none, st)
  | .initstate seed b sz => (initstate st seed b sz).bind fun x => .ok (.buffer x.1, x.2)
  | .setstate b => (setstate st b).bind fun x => .ok (.buffer x.1, x.2)

def run (st : St) : List Op → Res (List Out × St)
  | [] => .ok ([], st)
  | op :: ops => (step st op).bind fun x => (run x.2 ops).bind fun y => .ok (x.1 :: y.1, y.2)

def Abs.run (a : Abs) : List Op → List Out × Abs
  | [] => ([], a)
  | op :: ops => let x := a.step op; let y := Abs.run x.2 ops; (x.1 :: y.1, y.2)

/-- Every operation is allowed when it is performed. -/
def AllAllowed (size : Nat → Nat) : Abs → List Op → Prop
  | _, [] => True
  | a, op :: ops => Allowed size a op ∧ AllAllowed size (a.step op).2 ops

/-! ## Abstraction -/

/-- The words behind the first one hold the generator of degree `n` after `t` numbers. -/
def Holds (ws : List Nat) (n i j seed t : Nat) : Prop :=
  i < 64 ∧ j < 64 ∧
  ((n = 0 ∧ ws[0]? = some (lcg seed t)) ∨
   ((n = 7 ∨ n = 15 ∨ n = 31 ∨ n = 63) ∧ i = (sep n + t) % n ∧ j = t % n ∧
    ∀ q, q < n → ws[(sep n + t + q) % n]? = some (r n seed (t + q))))

structure Rel (size : Nat → Nat) (st : St) (a : Abs) : Prop where
  cur : a.cur = st.cur
  len : ∀ b, (st.bufs b).length = size b
  live : ∃ seed t, a.info st.cur = some (st.n, seed, t) ∧ Holds ((st.bufs st.cur).drop 1) st.n st.i st.j seed t
  rest : ∀ b n seed t, b ≠ st.cur → a.info b = some (n, seed, t) →
    ∃ i j, (st.bufs b)[0]? = some (n * 65536 + i * 256 + j) ∧ Holds ((st.bufs b).drop 1) n i j seed t

theorem header (n i j : Nat) (hn : n < 64) (hi : i < 64) (hj : j < 64) : (n <<< 16 ||| i <<< 8 ||| j) % 2 ^ 32 = n * 65536 + i * 256 + j := by
  have e1 : n <<< 16 ||| i <<< 8 = n <<< 16 + i <<< 8 := (Nat.shiftLeft_add_eq_or_of_lt (by rw [Nat.shiftLeft_eq]; omega) n).symm
  have e2 : n <<< 16 + i <<< 8 = (n * 256 + i) <<< 8 := by simp only [Nat.shiftLeft_eq]; omega
  rw [e1, e2, ← Nat.shiftLeft_add_eq_or_of_lt (by omega), Nat.shiftLeft_eq]
  omega

theorem unheader (n i j : Nat) (hi : i < 64) (hj : j < 64) :
    (n * 65536 + i * 256 + j) >>> 16 = n ∧ ((n * 65536 + i * 256 + j) >>> 8) &&& 0xff = i ∧ (n * 65536 + i * 256 + j) &&& 0xff = j := by
  rw [show (0xff : Nat) = 2 ^ 8 - 1 by rfl, Nat.and_two_pow_sub_one_eq_mod, Nat.and_two_pow_sub_one_eq_mod, Nat.shiftRight_eq_div_pow,
    Nat.shiftRight_eq_div_pow]
  omega

theorem lcg31_eq (x : Nat) : lcg31 x = (1103515245 * x + 12345) % 2 ^ 31 := by
  unfold lcg31
  rw [show (0x7fffffff : Nat) = 2 ^ 31 - 1 by rfl, Nat.and_two_pow_sub_one_eq_mod]
  omega

theorem or_one (v : Nat) : v ||| 1 = v / 2 * 2 + 1 := by
  have : v ||| 1 = (v / 2) <<< 1 + 1 := by
    rw [Nat.shiftLeft_add_eq_or_of_lt (by decide)]
    apply Nat.eq_of_testBit_eq
    intro i
    cases i with
    | zero => simp
    | succ i => simp [Nat.testBit_succ, Nat.shiftLeft_eq, Nat.or_div_two]
  rw [this, Nat.shiftLeft_eq]

/-- Replacing the contents of the current buffer. -/
def upd (st : St) (ws : List Nat) : St := { st with bufs := fun b => if b = st.cur then ws else st.bufs b }

theorem wr_upd (st : St) (k v : Nat) (h : k < (st.bufs st.cur).length) : wr st k v = .ok (upd st ((st.bufs st.cur).set k v)) := by
  unfold wr upd
  rw [if_pos h]
  congr 2
  funext b
  split
  · rename_i hb; rw [hb]
  · rfl

theorem upd_upd (st : St) (ws ws' : List Nat) : upd (upd st ws) ws' = upd st ws' := by
  have : ∀ b, (if b = st.cur then ws' else if b = st.cur then ws else st.bufs b) = if b = st.cur then ws' else st.bufs b := by
    intro b; split <;> simp_all
  unfold upd
  simp only [this]

theorem upd_cur (st : St) (ws : List Nat) : (upd st ws).bufs (upd st ws).cur = ws := by simp [upd]

theorem fill_ok (seed : Nat) : ∀ (c k : Nat) (st : St), k + c + 1 ≤ (st.bufs st.cur).length →
    ∃ ws, fill c k (s seed k) st = .ok (upd st ws) ∧ ws.length = (st.bufs st.cur).length ∧
      (∀ q, q ≤ k → ws[q]? = (st.bufs st.cur)[q]?) ∧
      (∀ q, k ≤ q → q < k + c → ws[q + 1]? = some (s seed (q + 1) / 2 ^ 32)) := by
  intro c
  induction c with
  | zero =>
    intro k st _
    refine ⟨st.bufs st.cur, ?_, rfl, fun _ _ => rfl, fun q h1 h2 => by omega⟩
    rw [fill]
    have : ∀ b, (if b = st.cur then st.bufs st.cur else st.bufs b) = st.bufs b := by
      intro b; split <;> simp_all
    unfold upd
    simp only [this]
  | succ c ih =>
    intro k st h
    rw [fill, wrx, wr_upd _ _ _ (by omega)]
    simp only [Res.bind]
    have e : lcg64 (s seed k) = s seed (k + 1) := rfl
    have hc := upd_cur st ((st.bufs st.cur).set (k + 1) (lcg64 (s seed k) >>> 32))
    obtain ⟨ws, e1, e2, e3, e4⟩ := ih (k + 1) (upd st ((st.bufs st.cur).set (k + 1) (lcg64 (s seed k) >>> 32))) (by rw [hc]; simp; omega)
    rw [e] at e1 e2 e3 hc ⊢
    rw [hc] at e2 e3
    refine ⟨ws, ?_, by rw [e2]; simp, fun q hq => ?_, fun q h1 h2 => ?_⟩
    · rw [e1, upd_upd]
    · rw [e3 q (by omega), List.getElem?_set_ne (by omega)]
    · by_cases hq : q = k
      · subst hq
        rw [e3 (q + 1) (by omega), List.getElem?_set_self (by omega), Nat.shiftRight_eq_div_pow]
      · exact e4 q (by omega) (by omega)

theorem sep_lt {n : Nat} (hn : n = 7 ∨ n = 15 ∨ n = 31 ∨ n = 63) : 1 ≤ sep n ∧ sep n < n := by
  rcases hn with rfl | rfl | rfl | rfl <;> decide

theorem r_init {n : Nat} (hn : n = 7 ∨ n = 15 ∨ n = 31 ∨ n = 63) (seed q : Nat) (hq : q < n) : r n seed q = word seed ((sep n + q) % n) := by
  rw [r, dif_pos (Or.inl hq)]

theorem r_step {n : Nat} (hn : n = 7 ∨ n = 15 ∨ n = 31 ∨ n = 63) (seed t : Nat) :
    r n seed (n + t) = (r n seed t + r n seed (n + t - sep n)) % 2 ^ 32 := by
  rw [r, dif_neg (by omega), show n + t - n = t by omega]

theorem r_lt {n : Nat} (hn : n = 7 ∨ n = 15 ∨ n = 31 ∨ n = 63) (seed t : Nat) : r n seed (n + t) < 2 ^ 32 := by
  rw [r_step hn]
  exact Nat.mod_lt _ (by decide)

theorem mod_step {n : Nat} (hn : n = 7 ∨ n = 15 ∨ n = 31 ∨ n = 63) (a : Nat) :
    (if a % n + 1 = n then 0 else a % n + 1) = (a + 1) % n := by
  rcases hn with rfl | rfl | rfl | rfl <;> (split <;> omega)

theorem srandom_ok (st : St) (seed : Nat) (hn : st.n = 0 ∨ st.n = 7 ∨ st.n = 15 ∨ st.n = 31 ∨ st.n = 63)
    (hl : st.n + 1 ≤ (st.bufs st.cur).length) (hl2 : 2 ≤ (st.bufs st.cur).length) (hi : st.i < 64) (hj : st.j < 64) :
    ∃ ws i j, srandom st seed = .ok { upd st ws with i := i, j := j } ∧ ws.length = (st.bufs st.cur).length ∧
      ws[0]? = (st.bufs st.cur)[0]? ∧ Holds (ws.drop 1) st.n i j seed 0 := by
  unfold srandom
  by_cases h0 : st.n = 0
  · rw [if_pos h0, wrx, wr_upd _ _ _ (by omega)]
    refine ⟨_, st.i, st.j, rfl, by simp, by rw [List.getElem?_set_ne (by omega)], hi, hj, Or.inl ⟨h0, ?_⟩⟩
    rw [List.getElem?_drop, List.getElem?_set_self (by omega)]
    rfl
  · rw [if_neg h0]
    have hn' : st.n = 7 ∨ st.n = 15 ∨ st.n = 31 ∨ st.n = 63 := by omega
    obtain ⟨ws, e1, e2, e3, e4⟩ := fill_ok seed st.n 0 { st with i := if st.n = 31 ∨ st.n = 7 then 3 else 1, j := 0 } (by simpa using hl)
    rw [show s seed 0 = seed from rfl] at e1
    rw [e1]
    simp only [Res.bind]
    have hv : ws[1]? = some (s seed 1 / 2 ^ 32) := e4 0 (by omega) (by omega)
    have hlen : ws.length = (st.bufs st.cur).length := e2
    rw [rdx, upd_cur]
    simp only [Nat.zero_add]
    rw [hv]
    simp only [wrx]
    rw [wr_upd _ _ _ (by rw [upd_cur]; omega), upd_cur, upd_upd]
    have hsep : (if st.n = 31 ∨ st.n = 7 then 3 else 1) = sep st.n := rfl
    have hs := sep_lt hn'
    refine ⟨ws.set 1 (s seed 1 / 2 ^ 32 ||| 1), sep st.n, 0, rfl, by simp [hlen], ?_, by omega, by omega, Or.inr ⟨hn', ?_, by simp, ?_⟩⟩
    · rw [List.getElem?_set_ne (by omega)]
      exact e3 0 (by omega)
    · rw [Nat.add_zero, Nat.mod_eq_of_lt hs.2]
    · intro q hq
      rw [Nat.zero_add, Nat.add_zero, r_init hn' seed q hq, List.getElem?_drop]
      generalize hk : (sep st.n + q) % st.n = k
      have hkn : k < st.n := by rw [← hk]; exact Nat.mod_lt _ (by omega)
      by_cases h1 : k = 0
      · subst h1
        rw [List.getElem?_set_self (by omega), or_one]
        rfl
      · rw [List.getElem?_set_ne (by omega), Nat.add_comm 1 k, e4 k (by omega) (by omega), word, if_neg h1]

theorem random_ok (st : St) (seed t : Nat) (h : Holds ((st.bufs st.cur).drop 1) st.n st.i st.j seed t) :
    ∃ ws i j, random st = .ok (value st.n seed t, { upd st ws with i := i, j := j }) ∧ ws.length = (st.bufs st.cur).length ∧
      ws[0]? = (st.bufs st.cur)[0]? ∧ Holds (ws.drop 1) st.n i j seed (t + 1) := by
  obtain ⟨hi, hj, ⟨h0, hw⟩ | ⟨hn, hi', hj', hw⟩⟩ := h
  · unfold random value
    rw [if_pos h0, if_pos h0, rdx]
    rw [List.getElem?_drop] at hw
    rw [show 1 + 0 = 0 + 1 by rfl] at hw
    rw [hw]
    have hl : 0 + 1 < (st.bufs st.cur).length := by
      rcases List.getElem?_eq_some_iff.1 hw with ⟨h, _⟩; exact h
    simp only [Res.bind, wrx]
    rw [wr_upd _ _ _ hl, lcg31_eq]
    refine ⟨_, st.i, st.j, rfl, by simp, by rw [List.getElem?_set_ne (by omega)], hi, hj, Or.inl ⟨h0, ?_⟩⟩
    rw [List.getElem?_drop, show 1 + 0 = 0 + 1 by rfl, List.getElem?_set_self hl]
    rfl
  · have hs := sep_lt hn
    have h0 : st.n ≠ 0 := by omega
    have hw0 := hw 0 (by omega)
    have hws := hw (st.n - sep st.n) (by omega)
    have e1 : (sep st.n + t + (st.n - sep st.n)) % st.n = t % st.n := by
      rw [show sep st.n + t + (st.n - sep st.n) = t + st.n by omega, Nat.add_mod_right]
    rw [Nat.add_zero, Nat.add_zero, ← hi', List.getElem?_drop, Nat.add_comm 1] at hw0
    rw [e1, ← hj', List.getElem?_drop, Nat.add_comm 1, show t + (st.n - sep st.n) = st.n + t - sep st.n by omega] at hws
    have hl : st.i + 1 < (st.bufs st.cur).length := by
      rcases List.getElem?_eq_some_iff.1 hw0 with ⟨h, _⟩; exact h
    have hiv : (if st.i + 1 = st.n then 0 else st.i + 1) = (sep st.n + (t + 1)) % st.n := by
      rw [hi', mod_step hn]; rfl
    have hjv : (if st.j + 1 = st.n then 0 else st.j + 1) = (t + 1) % st.n := by
      rw [hj', mod_step hn]
    unfold random value
    rw [if_neg h0, if_neg h0, rdx, hw0]
    simp only [Res.bind]
    rw [rdx, hws]
    simp only [wrx]
    rw [wr_upd _ _ _ hl, ← r_step hn, Nat.shiftRight_eq_div_pow]
    refine ⟨(st.bufs st.cur).set (st.i + 1) (r st.n seed (st.n + t)), if st.i + 1 = st.n then 0 else st.i + 1,
      if st.j + 1 = st.n then 0 else st.j + 1, rfl, by simp, by rw [List.getElem?_set_ne (by omega)], ?_⟩
    rw [hiv, hjv]
    refine ⟨?_, ?_, Or.inr ⟨hn, rfl, rfl, ?_⟩⟩
    · have := Nat.mod_lt (sep st.n + (t + 1)) (show st.n > 0 by omega); omega
    · have := Nat.mod_lt (t + 1) (show st.n > 0 by omega); omega
    · intro q hq
      rw [List.getElem?_drop, Nat.add_comm 1]
      by_cases hq' : q = st.n - 1
      · have e2 : (sep st.n + (t + 1) + q) % st.n = st.i := by
          rw [hi', show sep st.n + (t + 1) + q = sep st.n + t + st.n by omega, Nat.add_mod_right]
        rw [e2, List.getElem?_set_self hl, show t + 1 + q = st.n + t by omega]
      · have := hw (q + 1) (by omega)
        rw [List.getElem?_drop, Nat.add_comm 1, show sep st.n + t + (q + 1) = sep st.n + (t + 1) + q by omega,
          show t + (q + 1) = t + 1 + q by omega] at this
        rw [List.getElem?_set_ne, this]
        rw [hi']
        intro hc
        have hc : (sep st.n + t) % st.n = (sep st.n + (t + 1) + q) % st.n := by omega
        rcases hn with h | h | h | h <;> (rw [h] at hc hq hq'; omega)

theorem Holds.n_lt {ws : List Nat} {n i j seed t : Nat} (h : Holds ws n i j seed t) : n < 64 := by
  obtain ⟨_, _, ⟨h, _⟩ | ⟨h, _⟩⟩ := h <;> omega

theorem Holds.len {l : List Nat} {n i j seed t : Nat} (h : Holds (l.drop 1) n i j seed t) : 0 < l.length := by
  obtain ⟨_, _, ⟨_, h⟩ | ⟨hn, _, _, h⟩⟩ := h
  · rw [List.getElem?_drop] at h
    rcases List.getElem?_eq_some_iff.1 h with ⟨h, _⟩
    omega
  · have := h 0 (by omega)
    rw [List.getElem?_drop] at this
    rcases List.getElem?_eq_some_iff.1 this with ⟨h, _⟩
    omega

theorem savestate_ok (st : St) (seed t : Nat) (h : Holds ((st.bufs st.cur).drop 1) st.n st.i st.j seed t) :
    ∃ ws, savestate st = .ok (st.cur, upd st ws) ∧ ws.length = (st.bufs st.cur).length ∧
      ws[0]? = some (st.n * 65536 + st.i * 256 + st.j) ∧ ws.drop 1 = (st.bufs st.cur).drop 1 := by
  refine ⟨(st.bufs st.cur).set 0 (st.n * 65536 + st.i * 256 + st.j), ?_, by simp, List.getElem?_set_self h.len, ?_⟩
  · rw [savestate, header _ _ _ h.n_lt h.1 h.2.1, wr_upd _ _ _ h.len]
    rfl
  · cases st.bufs st.cur with
    | nil => rfl
    | cons x l => rfl

/-- One operation of the implementation means what the specification says. -/
theorem step_refines (size : Nat → Nat) (st : St) (a : Abs) (op : Op) (hr : Rel size st a) (ha : Allowed size a op) :
    ∃ st', step st op = .ok ((a.step op).1, st') ∧ Rel size st' (a.step op).2 := by
  obtain ⟨hcur, hlen, ⟨seed0, t0, hinfo, hh⟩, hrest⟩ := hr
  cases op with
  | random =>
    obtain ⟨ws, i, j, e1, e2, e3, e4⟩ := random_ok st seed0 t0 hh
    refine ⟨_, by rw [step, e1, Abs.step, hcur, hinfo]; rfl, ?_⟩
    rw [Abs.step, hcur, hinfo]
    refine ⟨hcur.symm ▸ rfl, fun b => ?_, ⟨seed0, t0 + 1, by simp [upd], by simpa [upd] using e4⟩, ?_⟩
    · simp only [upd]; split
      · rename_i h; rw [e2, h, hlen]
      · exact hlen b
    · intro b n seed t hb hi
      have hb : b ≠ st.cur := hb
      simp only [hb, if_false] at hi
      simpa [upd, hb] using hrest b n seed t hb hi
  | srandom seed =>
    have hnl : st.n + 1 ≤ (st.bufs st.cur).length ∧ 2 ≤ (st.bufs st.cur).length := by
      obtain ⟨_, _, ⟨h, hw⟩ | ⟨hn, _, _, hw⟩⟩ := hh
      · rw [List.getElem?_drop] at hw
        rcases List.getElem?_eq_some_iff.1 hw with ⟨h', _⟩
        omega
      · have hs := sep_lt hn
        have hm := Nat.mod_lt (sep st.n + t0) (show st.n > 0 by omega)
        have := hw (st.n - 1 - (sep st.n + t0) % st.n) (by omega)
        have e : (sep st.n + t0 + (st.n - 1 - (sep st.n + t0) % st.n)) % st.n = st.n - 1 := by
          rcases hn with h | h | h | h <;> (rw [h] at hm ⊢; omega)
        rw [e, List.getElem?_drop] at this
        rcases List.getElem?_eq_some_iff.1 this with ⟨h', _⟩
        omega
    have hn : st.n = 0 ∨ st.n = 7 ∨ st.n = 15 ∨ st.n = 31 ∨ st.n = 63 := by
      obtain ⟨_, _, ⟨h, _⟩ | ⟨h, _⟩⟩ := hh <;> omega
    obtain ⟨ws, i, j, e1, e2, e3, e4⟩ := srandom_ok st seed hn hnl.1 hnl.2 hh.1 hh.2.1
    refine ⟨_, by rw [step, e1, Abs.step, hcur, hinfo]; rfl, ?_⟩
    rw [Abs.step, hcur, hinfo]
    refine ⟨hcur.symm ▸ rfl, fun b => ?_, ⟨seed, 0, by simp [upd], by simpa [upd] using e4⟩, ?_⟩
    · simp only [upd]; split
      · rename_i h; rw [e2, h, hlen]
      · exact hlen b
    · intro b n seed t hb hi
      have hb : b ≠ st.cur := hb
      simp only [hb, if_false] at hi
      simpa [upd, hb] using hrest b n seed t hb hi
  | initstate seed b sz =>
    by_cases h8 : sz < 8
    · refine ⟨st, by rw [step, initstate, if_pos h8, Abs.step, if_pos h8]; rfl, ?_⟩
      rw [Abs.step, if_pos h8]
      exact ⟨hcur, hlen, ⟨seed0, t0, hinfo, hh⟩, hrest⟩
    · obtain ⟨ws1, s1, s2, s3, s4⟩ := savestate_ok st seed0 t0 hh
      have hlen1 : ∀ b, ((upd st ws1).bufs b).length = size b := by
        intro b
        simp only [upd]; split
        · rename_i h; rw [s2, h, hlen]
        · exact hlen b
      have hdo : degreeOf sz = degree sz := by
        unfold degree degreeOf; repeat' split
        all_goals omega
      have hd : degree sz = 0 ∨ degree sz = 7 ∨ degree sz = 15 ∨ degree sz = 31 ∨ degree sz = 63 := by
        unfold degree; repeat' split
        all_goals simp
      have hd2 : degree sz + 1 ≤ size b ∧ 2 ≤ size b := by
        have := ha.2
        unfold degree; repeat' split
        all_goals omega
      obtain ⟨ws2, i, j, e1, e2, e3, e4⟩ := srandom_ok { upd st ws1 with n := degree sz, cur := b } seed hd
        (by simpa [hlen1] using hd2.1) (by simpa [hlen1] using hd2.2) hh.1 hh.2.1
      obtain ⟨ws3, f1, f2, f3, f4⟩ := savestate_ok { upd { upd st ws1 with n := degree sz, cur := b } ws2 with i := i, j := j } seed 0
        (by simpa [upd] using e4)
      refine ⟨_, by rw [step, initstate, if_neg h8, s1]; simp only [Res.bind]; rw [e1]; simp only; rw [f1, Abs.step, if_neg h8, hcur], ?_⟩
      rw [Abs.step, if_neg h8]
      have hcw : ∀ b', b' ≠ b → (upd { upd { upd st ws1 with n := degree sz, cur := b } ws2 with i := i, j := j } ws3).bufs b' =
          (upd st ws1).bufs b' := by
        intro b' hb'
        simp [upd, hb']
      have hcb : (upd { upd { upd st ws1 with n := degree sz, cur := b } ws2 with i := i, j := j } ws3).bufs b = ws3 := by
        simp [upd]
      refine ⟨rfl, fun b' => ?_, ⟨seed, 0, by simp [upd, hdo], ?_⟩, ?_⟩
      · by_cases hb' : b' = b
        · subst hb'
          rw [hcb, f2]
          have : ((upd { upd st ws1 with n := degree sz, cur := b' } ws2).bufs b') = ws2 := by simp [upd]
          show (((upd { upd st ws1 with n := degree sz, cur := b' } ws2).bufs b')).length = _
          rw [this, e2]
          exact hlen1 b'
        · rw [hcw b' hb']; exact hlen1 b'
      · show Holds (((upd { upd { upd st ws1 with n := degree sz, cur := b } ws2 with i := i, j := j } ws3).bufs b).drop 1) (degree sz) i j seed 0
        rw [hcb, f4]
        simpa [upd] using e4
      · intro b' n sd t hb' hi
        have hb' : b' ≠ b := hb'
        simp only [hb', if_false] at hi
        rw [hcw b' hb']
        by_cases hbc : b' = st.cur
        · subst hbc
          rw [hinfo] at hi
          injection hi with hi; injection hi with hi1 hi2; injection hi2 with hi2 hi3
          subst hi1 hi2 hi3
          refine ⟨st.i, st.j, ?_, ?_⟩
          · simpa [upd] using s3
          · have : (upd st ws1).bufs st.cur = ws1 := by simp [upd]
            rw [this, s4]; exact hh
        · simpa [upd, hbc] using hrest b' n sd t hbc hi
  | setstate b =>
    obtain ⟨ws1, s1, s2, s3, s4⟩ := savestate_ok st seed0 t0 hh
    have hlen1 : ∀ b, ((upd st ws1).bufs b).length = size b := by
      intro b
      simp only [upd]; split
      · rename_i h; rw [s2, h, hlen]
      · exact hlen b
    have hsaved : ∀ b n sd t, a.info b = some (n, sd, t) →
        ∃ i j, ((upd st ws1).bufs b)[0]? = some (n * 65536 + i * 256 + j) ∧ Holds (((upd st ws1).bufs b).drop 1) n i j sd t := by
      intro b n sd t hi
      by_cases hbc : b = st.cur
      · subst hbc
        rw [hinfo] at hi
        injection hi with hi; injection hi with hi1 hi2; injection hi2 with hi2 hi3
        subst hi1 hi2 hi3
        have : (upd st ws1).bufs st.cur = ws1 := by simp [upd]
        rw [this, s4]
        exact ⟨st.i, st.j, s3, hh⟩
      · simpa [upd, hbc] using hrest b n sd t hbc hi
    obtain ⟨⟨n, sd, t⟩, hi⟩ := Option.isSome_iff_exists.1 ha
    obtain ⟨i, j, g1, g2⟩ := hsaved b n sd t hi
    obtain ⟨u1, u2, u3⟩ := unheader n i j g2.1 g2.2.1
    refine ⟨{ upd st ws1 with cur := b, n := n, i := i, j := j }, ?_, rfl, hlen1, ⟨sd, t, hi, g2⟩, ?_⟩
    · rw [step, setstate, s1]
      simp only [Res.bind, loadstate]
      rw [g1]
      simp only
      rw [u1, u2, u3, Abs.step, hcur]
    · intro b' n' sd' t' _ hi'
      exact hsaved b' n' sd' t' hi'

/-- C57: whatever the caller does, every buffer holds its own generator, whose numbers depend on the size of the buffer, the seed
and how many numbers were drawn from it; switching away and back with `initstate` and `setstate` resumes it. Nothing is accessed outside the buffers. -/
theorem random_exact (size : Nat → Nat) : ∀ (ops : List Op) (st : St) (a : Abs), Rel size st a → AllAllowed size a ops →
    ∃ st', run st ops = .ok ((a.run ops).1, st') ∧ Rel size st' (a.run ops).2 := by
  intro ops
  induction ops with
  | nil => intro st a hr _; exact ⟨st, rfl, hr⟩
  | cons op ops ih =>
    intro st a hr ha
    obtain ⟨st1, e1, hr1⟩ := step_refines size st a op hr ha.1
    obtain ⟨st2, e2, hr2⟩ := ih st1 _ hr1 ha.2
    refine ⟨st2, ?_, hr2⟩
    rw [run, e1]
    simp only [Res.bind]
    rw [e2]
    rfl

/-- The numbers lie between 0 and 2^31 - 1. -/
theorem value_range (n seed t : Nat) (hn : n = 0 ∨ n = 7 ∨ n = 15 ∨ n = 31 ∨ n = 63) : value n seed t < 2 ^ 31 := by
  unfold value
  split
  · rw [lcg]; exact Nat.mod_lt _ (by decide)
  · have := r_lt (n := n) (by omega) seed t
    omega

/-- The static array. L25-33 -/
def table : List Nat := [0x00000000,0x5851f42d,0xc0b18ccf,0xcbb5f646,
  0xc7033129,0x30705b04,0x20fd5db4,0x9a8b7f78,
  0x502959d8,0xab894868,0x6c0356a7,0x88cdb7ff,
  0xb477d43f,0x70a3a52b,0xa8e4baf1,0xfd8341fc,
  0x8ae16fd9,0x742d2f7a,0x0d1f0796,0x76035e09,
  0x40f7702c,0x6fa72ca5,0xaaa84157,0x58a0df74,
  0xc74a0364,0xae533cc4,0x04185faf,0x6de3b115,
  0x0cab8628,0xf043bfa4,0x398150e9,0x37521657]

/-- The state at the start; `bufs` are the arrays of the caller. -/
def initial (bufs : Nat → List Nat) : St := ⟨fun b => if b = 0 then table else bufs b, 0, 31, 3, 0⟩

/-- A program that never calls `srandom` gets the numbers for seed 1. -/
theorem initial_seed (bufs : Nat → List Nat) :
    Rel (fun b => if b = 0 then 32 else (bufs b).length) (initial bufs) ⟨0, fun b => if b = 0 then some (31, 1, 0) else none⟩ := by
  refine ⟨rfl, fun b => ?_, ⟨1, 0, rfl, ?_⟩, ?_⟩
  · show (if b = 0 then table else bufs b).length = _
    split <;> rfl
  · show Holds (table.drop 1) 31 3 0 1 0
    refine ⟨by decide, by decide, Or.inr ⟨by decide, by decide, by decide, ?_⟩⟩
    intro q hq
    rw [Nat.zero_add, r_init (by decide) 1 q hq, Nat.add_zero]
    have : ∀ q : Fin 31, (table.drop 1)[(sep 31 + q.val) % 31]? = some (word 1 ((sep 31 + q.val) % 31)) := by decide +kernel
    exact this ⟨q, hq⟩
  · intro b n seed t hb hi
    have hb : b ≠ 0 := hb
    simp [hb] at hi

/-- Drawing a number, switching to an own buffer of 8 words, drawing two numbers, and going back: the fourth number drawn
is the second one of the generator at the start. -/
example : AllAllowed (fun b => if b = 0 then 32 else 8) ⟨0, fun b => if b = 0 then some (31, 1, 0) else none⟩
    [.random, .initstate 42 1 32, .random, .random, .setstate 0, .random] := by
  refine ⟨trivial, ?_, trivial, trivial, ?_, trivial, trivial⟩
  · exact ⟨by decide, by decide⟩
  · rfl

example : (Abs.run ⟨0, fun b => if b = 0 then some (31, 1, 0) else none⟩
    [.random, .initstate 42 1 32, .random, .random, .setstate 0, .random]).1 =
    [.number (value 31 1 0), .buffer (some 0), .number (value 7 42 0), .number (value 7 42 1), .buffer (some 1), .number (value 31 1 1)] := rfl

/-! ## rand_r -/

/-- `temper`. options/ansi/generic/stdlib.cpp L106-112 -/
def temper (x : Nat) : Nat :=
  let x := x ^^^ x >>> 11
  let x := x ^^^ ((x <<< 7) % 2 ^ 32 &&& 0x9D2C5680)
  let x := x ^^^ ((x <<< 15) % 2 ^ 32 &&& 0xEFC60000)
  x ^^^ x >>> 18

/-- `rand_r`: the number and the seed afterwards. L114-116 -/
def randR (seed : Nat) : Nat × Nat :=
  let seed := (seed * 1103515245 + 12345) % 2 ^ 32
  (temper seed / 2, seed)

/-- The seed after `t` calls. -/
def randRSeed (seed : Nat) : Nat → Nat
  | 0 => seed
  | t + 1 => (randR (randRSeed seed t)).2

theorem temper_lt (x : Nat) (h : x < 2 ^ 32) : temper x < 2 ^ 32 := by
  unfold temper
  simp only
  have h1 : x ^^^ x >>> 11 < 2 ^ 32 := Nat.xor_lt_two_pow h (by rw [Nat.shiftRight_eq_div_pow]; omega)
  generalize x ^^^ x >>> 11 = y at h1
  have h2 : y ^^^ ((y <<< 7) % 2 ^ 32 &&& 0x9D2C5680) < 2 ^ 32 := Nat.xor_lt_two_pow h1 (Nat.and_lt_two_pow _ (by decide))
  generalize y ^^^ ((y <<< 7) % 2 ^ 32 &&& 0x9D2C5680) = z at h2
  have h3 : z ^^^ ((z <<< 15) % 2 ^ 32 &&& 0xEFC60000) < 2 ^ 32 := Nat.xor_lt_two_pow h2 (Nat.and_lt_two_pow _ (by decide))
  generalize z ^^^ ((z <<< 15) % 2 ^ 32 &&& 0xEFC60000) = u at h3
  exact Nat.xor_lt_two_pow h3 (by rw [Nat.shiftRight_eq_div_pow]; omega)

/-- C57: `rand_r` gives numbers from 0 to RAND_MAX = 2^31 - 1. -/
theorem randR_range (seed : Nat) : (randR seed).1 < 2 ^ 31 := by
  have := temper_lt ((seed * 1103515245 + 12345) % 2 ^ 32) (Nat.mod_lt _ (by decide))
  show temper ((seed * 1103515245 + 12345) % 2 ^ 32) / 2 < _
  omega

theorem affine_injective (m c d M inv K a b : Nat) (h1 : m * inv = 1 + K * M) (h2 : c + d = M)
    (h : (a * m + c) % M = (b * m + c) % M) (ha : a < M) (hb : b < M) : a = b := by
  have key : ∀ x, ((x * m + c) % M + d) % M * inv % M = x % M := by
    intro x
    have e : x * m * inv = x + x * K * M := by
      rw [Nat.mul_assoc, h1, Nat.mul_add, Nat.mul_one, Nat.mul_assoc]
    rw [Nat.mod_add_mod, Nat.add_assoc, h2, Nat.add_mod_right, Nat.mod_mul_mod, e, Nat.add_mul_mod_self_right]
  have := key a
  rw [h, key b, Nat.mod_eq_of_lt hb, Nat.mod_eq_of_lt ha] at this
  exact this.symm

/-- Different seeds stay different: the step of `rand_r` is a permutation of the seeds. -/
theorem randR_injective {a b : Nat} (ha : a < 2 ^ 32) (hb : b < 2 ^ 32) (h : (randR a).2 = (randR b).2) : a = b :=
  affine_injective 1103515245 12345 4294954951 (2 ^ 32) 4005161829 1029054899 a b (by decide) (by decide) h ha hb

/-! ## The drand48 family -/

/-- The 48-bit number in three 16-bit words. L86-87 -/
def join3 (a b c : Nat) : Nat := a ||| b <<< 16 ||| c <<< 32

/-- The multiplier and the addend in `seed_48`. L81 -/
def mul48 : Nat := join3 0xe66d 0xdeec 0x5
def add48 : Nat := 0xb

/-- `eand48_step`: the result and the three words afterwards. L83-93 -/
def step48 (xi : Nat × Nat × Nat) : Nat × (Nat × Nat × Nat) :=
  let x := (mul48 * join3 xi.1 xi.2.1 xi.2.2 + add48) % 2 ^ 64
  (x &&& 0xffffffffffff, (x % 2 ^ 16, (x >>> 16) % 2 ^ 16, (x >>> 32) % 2 ^ 16))

/-- `jrand48`. L117-119 -/
def jrand48 (xi : Nat × Nat × Nat) : Int × (Nat × Nat × Nat) :=
  let x := step48 xi
  let v : Nat := (x.1 >>> 16) % 2 ^ 32
  (if v < 2 ^ 31 then (v : Int) else (v : Int) - 2 ^ 32, x.2)

/-- `erand48`: the bits of the number before 1.0 is subtracted. L97-103 -/
def erand48Bits (xi : Nat × Nat × Nat) : Nat := 0x3ff0000000000000 ||| (step48 xi).1 <<< 4

/-- `srand48`. L112-115 -/
def srand48 (seed : Int) : Nat × Nat × Nat := (0x330e, (seed % 2 ^ 16).toNat, (seed / 2 ^ 16 % 2 ^ 16).toNat)

/-- The words of a 48-bit number. -/
def Is48 (xi : Nat × Nat × Nat) (x : Nat) : Prop :=
  xi.1 < 2 ^ 16 ∧ xi.2.1 < 2 ^ 16 ∧ xi.2.2 < 2 ^ 16 ∧ x = xi.1 + xi.2.1 * 2 ^ 16 + xi.2.2 * 2 ^ 32

theorem join3_eq (a b c : Nat) (ha : a < 2 ^ 16) (hb : b < 2 ^ 16) : join3 a b c = a + b * 2 ^ 16 + c * 2 ^ 32 := by
  unfold join3
  rw [Nat.or_comm a, ← Nat.shiftLeft_add_eq_or_of_lt ha, Nat.or_comm,
    ← Nat.shiftLeft_add_eq_or_of_lt (by rw [Nat.shiftLeft_eq]; omega)]
  simp only [Nat.shiftLeft_eq]
  omega

/-- C57: the step is the linear congruential one of POSIX: X(n+1) = (0x5DEECE66D X(n) + 0xB) mod 2^48. -/
theorem step48_exact (xi : Nat × Nat × Nat) (x : Nat) (h : Is48 xi x) :
    (step48 xi).1 = (0x5DEECE66D * x + 0xB) % 2 ^ 48 ∧ Is48 (step48 xi).2 ((0x5DEECE66D * x + 0xB) % 2 ^ 48) := by
  obtain ⟨a, b, c⟩ := xi
  obtain ⟨h1, h2, h3, hx⟩ := h
  simp only at h1 h2 h3 hx
  have hm : mul48 = 0x5DEECE66D := by decide
  have hj := join3_eq a b c h1 h2
  rw [← hx] at hj
  unfold step48 add48
  simp only
  rw [hm, hj, show (0xffffffffffff : Nat) = 2 ^ 48 - 1 by rfl, Nat.and_two_pow_sub_one_eq_mod]
  generalize 0x5DEECE66D * x + 0xB = y
  simp only [Nat.shiftRight_eq_div_pow]
  refine ⟨by omega, ?_, ?_, ?_, ?_⟩ <;> simp only <;> omega

/-- The state after `t` numbers: X(0) = x, X(n+1) = (0x5DEECE66D X(n) + 0xB) mod 2^48. -/
def X (x : Nat) : Nat → Nat
  | 0 => x
  | t + 1 => (0x5DEECE66D * X x t + 0xB) % 2 ^ 48

/-- The three words after `t` calls. -/
def words48 (xi : Nat × Nat × Nat) : Nat → Nat × Nat × Nat
  | 0 => xi
  | t + 1 => (step48 (words48 xi t)).2

theorem words48_exact (xi : Nat × Nat × Nat) (x : Nat) (h : Is48 xi x) (t : Nat) : Is48 (words48 xi t) (X x t) := by
  induction t with
  | zero => exact h
  | succ t ih => exact (step48_exact _ _ ih).2

theorem X_lt (x t : Nat) : X x (t + 1) < 2 ^ 48 := Nat.mod_lt _ (by decide)

/-- C57: the numbers of `jrand48` are the upper 32 bits of X(1), X(2), … as signed numbers. -/
theorem jrand48_exact (xi : Nat × Nat × Nat) (x : Nat) (h : Is48 xi x) (t : Nat) :
    (jrand48 (words48 xi t)).1 % 2 ^ 32 = (X x (t + 1) / 2 ^ 16 : Nat) ∧
    -2 ^ 31 ≤ (jrand48 (words48 xi t)).1 ∧ (jrand48 (words48 xi t)).1 < 2 ^ 31 := by
  have hs := (step48_exact _ _ (words48_exact xi x h t)).1
  have hx : (step48 (words48 xi t)).1 = X x (t + 1) := hs
  have hl := X_lt x t
  unfold jrand48
  simp only
  rw [hx, Nat.shiftRight_eq_div_pow]
  split <;> omega

/-- C57: the bits of `erand48` before the subtraction are those of a double with exponent 0, that is of a number between 1
and 2, whose fraction is X(t+1) / 2^48: the result is X(t+1) / 2^48, at least 0 and less than 1. -/
theorem erand48_exact (xi : Nat × Nat × Nat) (x : Nat) (h : Is48 xi x) (t : Nat) :
    erand48Bits (words48 xi t) / 2 ^ 52 = 1023 ∧ erand48Bits (words48 xi t) % 2 ^ 52 = X x (t + 1) * 2 ^ 4 ∧
    X x (t + 1) < 2 ^ 48 := by
  have hx : (step48 (words48 xi t)).1 = X x (t + 1) := (step48_exact _ _ (words48_exact xi x h t)).1
  have hl := X_lt x t
  unfold erand48Bits
  rw [hx]
  have e : (0x3ff0000000000000 : Nat) = 1023 <<< 52 := by decide
  rw [e, ← Nat.shiftLeft_add_eq_or_of_lt (by rw [Nat.shiftLeft_eq]; omega)]
  simp only [Nat.shiftLeft_eq]
  omega

/-- `srand48` sets the upper 32 bits to the seed and the lower 16 bits to 0x330E. -/
theorem srand48_exact (seed : Int) : Is48 (srand48 seed) ((seed % 2 ^ 32).toNat * 2 ^ 16 + 0x330E) := by
  refine ⟨?_, ?_, ?_, ?_⟩ <;> simp only [srand48] <;> omega

example : Is48 (srand48 (-1)) 0xFFFFFFFF330E := srand48_exact (-1)

end Mlibc.Random
