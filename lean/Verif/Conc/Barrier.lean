import Verif.Conc.Base
/-
Barriers: `pthread_barrier_init`, `pthread_barrier_wait` (options/posix/generic/pthread.cpp L1044-1130), called by any
number of threads in any interleaving. The counter `__mlibc_inside`, which only synchronises with
`pthread_barrier_destroy`, is not modelled. Property C39.
-/
set_option linter.unusedSimpArgs false
namespace Mlibc.Conc.Barrier

/-- Values are 32-bit. -/
def M : Nat := 2 ^ 32

/-- `(int)(a - b) > 0` for 32-bit unsigned `a`, `b`. L1116 -/
def after (a b : Nat) : Prop := 0 < (a + M - b) % M ∧ (a + M - b) % M < 2 ^ 31

instance (a b : Nat) : Decidable (after a b) := inferInstanceAs (Decidable (_ ∧ _))

/-- Where a thread is. `g` (not part of the program) numbers the round the thread joined, from the first use of the
barrier; `gen` is the generation the thread computed. -/
inductive Pc where
  | out
  /-- before the load. L1090 -/
  | load
  /-- in the loop, with this value of `old`. L1092 -/
  | loop (old : Nat)
  /-- joined, before loading the sequence number. L1114 -/
  | wait (g gen : Nat)
  /-- before `FutexWait(seq)`. L1118 -/
  | fut (g gen seq : Nat)
  | sleep (g gen seq : Nat)
  /-- last of its round, before the store of the sequence number. L1104 -/
  | store (g gen : Nat)
  /-- before `FutexWake`. L1105 -/
  | wake (g : Nat)
  deriving DecidableEq, Repr

/-- What an observer sees: calls, joining a round, and returns from a round. -/
inductive Lab where
  | tau | call
  | join (g : Nat)
  | ret (g : Nat) (serial : Bool)
  deriving DecidableEq, Repr

/-- `round` counts the rounds completed; it is not part of the program. -/
structure St where
  waiting : Nat
  seq : Nat
  round : Nat
  pc : Tid → Pc

/-- Sleeping threads load the sequence number again. -/
def wakeAll (pc : Tid → Pc) : Tid → Pc := fun u =>
  match pc u with
  | .sleep g gen _ => .wait g gen
  | p => p

/-- One step of thread `t` on a barrier for `c` threads; `p` is `1 << gen_shift`. L1072-1130 -/
inductive Step (c p : Nat) (t : Tid) : St → Lab → St → Prop where
  | call {s} : s.pc t = .out → Step c p t s .call { s with pc := upd s.pc t .load }
  | load {s} : s.pc t = .load → Step c p t s .tau { s with pc := upd s.pc t (.loop s.waiting) }
  | joinLast {s old} : s.pc t = .loop old → old % p + 1 = c → s.waiting = old →
      Step c p t s (.join s.round) { s with
        waiting := ((old / p + 1) * p) % M, round := s.round + 1, pc := upd s.pc t (.store s.round (old / p)) }
  | join {s old} : s.pc t = .loop old → old % p + 1 ≠ c → s.waiting = old →
      Step c p t s (.join s.round) { s with waiting := (old + 1) % M, pc := upd s.pc t (.wait s.round (old / p)) }
  /-- the weak compare-exchange fails -/
  | casFail {s old} : s.pc t = .loop old → Step c p t s .tau { s with pc := upd s.pc t (.loop s.waiting) }
  | leave {s g gen} : s.pc t = .wait g gen → after s.seq gen →
      Step c p t s (.ret g false) { s with pc := upd s.pc t .out }
  | stay {s g gen} : s.pc t = .wait g gen → ¬ after s.seq gen →
      Step c p t s .tau { s with pc := upd s.pc t (.fut g gen s.seq) }
  | futexSleep {s g gen q} : s.pc t = .fut g gen q → s.seq = q →
      Step c p t s .tau { s with pc := upd s.pc t (.sleep g gen q) }
  | futexAgain {s g gen q} : s.pc t = .fut g gen q → s.seq ≠ q →
      Step c p t s .tau { s with pc := upd s.pc t (.wait g gen) }
  | spurious {s g gen q} : s.pc t = .sleep g gen q → Step c p t s .tau { s with pc := upd s.pc t (.wait g gen) }
  | store {s g gen} : s.pc t = .store g gen →
      Step c p t s .tau { s with seq := (gen + 1) % M, pc := upd s.pc t (.wake g) }
  | wake {s g} : s.pc t = .wake g → Step c p t s (.ret g true) { s with pc := upd (wakeAll s.pc) t .out }

/-- `pthread_barrier_init` -/
def Init (s : St) : Prop := s.waiting = 0 ∧ s.seq = 0 ∧ s.round = 0 ∧ ∀ t, s.pc t = .out

/-- A step of any thread. -/
def Sys (c p : Nat) (s : St) (e : Tid × Lab) (s' : St) : Prop := Step c p e.1 s e.2 s'

/-- What `gen_shift = ceil_log2(count)` provides: `p = 1 << gen_shift` is a power of two at least the count.
(`frg::ceil_log2` is not in the repository.) Counts above 2^31, for which `gen_shift` is 32 and `1 << gen_shift` is
undefined, are excluded. L1086-1088 -/
structure Params (c p : Nat) : Prop where
  pos : 0 < c
  le : c ≤ p
  pow : ∃ sh, sh < 32 ∧ p = 2 ^ sh

/-- How many rounds fit before the generation number wraps. -/
def roundLimit (p : Nat) : Nat := min (M / p) (2 ^ 31)

/-! ## Specification -/

/-- How many threads have joined round `g`. -/
def joined (tr : List (Tid × Lab)) (g : Nat) : Nat := tr.countP (fun e => e.2 = .join g)

/-- How many threads have returned from round `g`. -/
def returned (tr : List (Tid × Lab)) (g : Nat) : Nat := tr.countP (fun e => e.2 = .ret g true ∨ e.2 = .ret g false)

/-- How many threads have been told `PTHREAD_BARRIER_SERIAL_THREAD` in round `g`. -/
def serials (tr : List (Tid × Lab)) (g : Nat) : Nat := tr.countP (fun e => e.2 = .ret g true)

/-! ## Invariant -/

/-- The thread is the last of round `g` and has not returned. -/
def Pc.lastOf (g : Nat) : Pc → Bool
  | .store g' _ | .wake g' => g' = g
  | _ => false

structure Inv (c p : Nat) (tr : List (Tid × Lab)) (s : St) : Prop where
  word : s.waiting = s.round * p + joined tr s.round ∧ joined tr s.round < c
  full : ∀ g, g < s.round → joined tr g = c
  none : ∀ g, s.round < g → joined tr g = 0
  gen : ∀ t g gen, s.pc t = .wait g gen → gen = g ∧ g ≤ s.round
  genF : ∀ t g gen q, s.pc t = .fut g gen q → gen = g ∧ g ≤ s.round ∧ q ≤ g
  genS : ∀ t g gen q, s.pc t = .sleep g gen q → gen = g ∧ g ≤ s.round ∧ q ≤ g
  last : ∀ t g gen, s.pc t = .store g gen → gen = g
  lastLt : ∀ t g, (s.pc t).lastOf g = true → g < s.round
  seqLe : s.seq ≤ s.round
  uniq : ∀ t u g, (s.pc t).lastOf g = true → (s.pc u).lastOf g = true → t = u
  serial0 : ∀ g, serials tr g = 0 ∨ (serials tr g = 1 ∧ ∀ t, (s.pc t).lastOf g = false)
  serial1 : ∀ g, g < s.round → serials tr g = 1 ∨ ∃ t, (s.pc t).lastOf g = true
  serialLt : ∀ g, serials tr g ≠ 0 → g < s.round
  ret : ∀ g, returned tr g ≠ 0 → g < s.round

theorem upd_pc (s : St) (t u : Tid) (x : Pc) : upd s.pc t x u = if u = t then x else s.pc u := rfl
grind_pattern upd_pc => upd s.pc t x, s.pc u

theorem joined_snoc (tr : List (Tid × Lab)) (e : Tid × Lab) (g : Nat) :
    joined (tr ++ [e]) g = joined tr g + if e.2 = .join g then 1 else 0 := by
  simp [joined, List.countP_append, List.countP_singleton]

theorem returned_snoc (tr : List (Tid × Lab)) (e : Tid × Lab) (g : Nat) :
    returned (tr ++ [e]) g = returned tr g + if e.2 = .ret g true ∨ e.2 = .ret g false then 1 else 0 := by
  simp [returned, List.countP_append, List.countP_singleton]

theorem serials_snoc (tr : List (Tid × Lab)) (e : Tid × Lab) (g : Nat) :
    serials (tr ++ [e]) g = serials tr g + if e.2 = .ret g true then 1 else 0 := by
  simp [serials, List.countP_append, List.countP_singleton]

theorem inv_init {c p : Nat} (hp : Params c p) (s : St) (h : Init s) : Inv c p [] s := by
  obtain ⟨h1, h2, h3, h4⟩ := h
  constructor <;> simp [h1, h2, h3, h4, joined, returned, serials, Pc.lastOf, hp.pos]

theorem after_iff {a b : Nat} (ha : a ≤ 2 ^ 31) (hb : b < 2 ^ 31) (hab : a ≤ b ∨ a < 2 ^ 31) :
    after a b ↔ b < a := by
  unfold after M
  omega

theorem decode {p r w : Nat} (h : w < p) : (r * p + w) / p = r ∧ (r * p + w) % p = w := by
  refine ⟨?_, ?_⟩
  · rw [Nat.mul_comm, Nat.mul_add_div (by omega), Nat.div_eq_of_lt h, Nat.add_zero]
  · rw [Nat.mul_comm, Nat.mul_add_mod, Nat.mod_eq_of_lt h]

theorem limit_mul {c p : Nat} (hp : Params c p) {r : Nat} (h : r < roundLimit p) : (r + 1) * p ≤ M ∧ r < 2 ^ 31 := by
  unfold roundLimit at h
  refine ⟨?_, by omega⟩
  have h1 : r + 1 ≤ M / p := by omega
  exact Nat.le_trans (Nat.mul_le_mul_right p h1) (Nat.div_mul_le_self M p)

set_option maxHeartbeats 4000000 in
theorem inv_step {c p : Nat} (hp : Params c p) {tr : List (Tid × Lab)} {s s' : St} {e : Tid × Lab}
    (h : Inv c p tr s) (hs : Sys c p s e s') (hb : s'.round < roundLimit p) : Inv c p (tr ++ [e]) s' := by
  obtain ⟨t, l⟩ := e
  obtain ⟨h1, h2, h3, h4, h5, h6, h7, h8, h9, h10, h11, h12, h13, h14⟩ := h
  have hle := hp.le
  have hdec := decode (r := s.round) (w := joined tr s.round) (p := p) (by omega)
  have hlim := limit_mul hp hb
  have haf : ∀ g, s.round < 2 ^ 31 → g ≤ s.round → (after s.seq g ↔ g < s.seq) :=
    fun g h hg => after_iff (by omega) (by omega) (by omega)
  rw [← h1.1] at hdec
  simp only [Sys] at hs
  cases hs
  case joinLast old hpc hlast hw =>
    subst hw
    simp only at hb hlim
    rw [hdec.2] at hlast
    simp only [hdec.1]
    have hmod : ((s.round + 1) * p) % M = (s.round + 1) * p := by
      apply Nat.mod_eq_of_lt
      have : (s.round + 1 + 1) * p = (s.round + 1) * p + p := by rw [Nat.add_mul (s.round + 1), Nat.one_mul]
      have := hp.pos
      omega
    have hx := upd_pc s t t (.store s.round s.round)
    rw [hmod]
    constructor <;> simp only [joined_snoc, returned_snoc, serials_snoc] <;> grind [Pc.lastOf]
  case join old hpc hlast hw =>
    subst hw
    simp only at hb hlim
    rw [hdec.2] at hlast
    simp only [hdec.1]
    have hmod : (s.waiting + 1) % M = s.waiting + 1 := by
      apply Nat.mod_eq_of_lt
      rw [Nat.add_mul, Nat.one_mul] at hlim
      omega
    have hx := upd_pc s t t (.wait s.round s.round)
    rw [hmod]
    constructor <;> simp only [joined_snoc, returned_snoc, serials_snoc] <;> grind [Pc.lastOf]
  case store g gen hpc =>
    have e1 := h7 t g gen hpc
    have e2 := h8 t g (by rw [hpc]; simp [Pc.lastOf])
    subst e1
    simp only at hb hlim
    have hmod : (gen + 1) % M = gen + 1 := by
      apply Nat.mod_eq_of_lt; unfold M; omega
    have hx := upd_pc s t t (.wake gen)
    rw [hmod]
    constructor <;> simp only [joined_snoc, returned_snoc, serials_snoc] <;> grind [Pc.lastOf]
  case wake g hpc =>
    have hx : ∀ u, upd (wakeAll s.pc) t .out u = if u = t then .out else
      match s.pc u with
      | .sleep g gen _ => .wait g gen
      | p => p := fun u => rfl
    have hl : ∀ u g, (upd (wakeAll s.pc) t .out u).lastOf g = if u = t then false else (s.pc u).lastOf g := by
      intro u g
      rw [hx u]
      split
      · rfl
      · cases s.pc u <;> rfl
    constructor <;> simp only [joined_snoc, returned_snoc, serials_snoc, hl] <;> grind [Pc.lastOf]
  all_goals
    generalize hq : upd s.pc t _ = q
    have hqq := fun u => (congrFun hq u)
    simp only [upd_apply] at hqq
    have hq2 : ∀ u, s.pc u = if u = t then s.pc t else q u := by intro u; rw [← hqq]; split <;> simp [*]
    have hq1 := hqq t
    simp only [if_true] at hq1
    constructor <;> simp only [joined_snoc, returned_snoc, serials_snoc] <;> grind [Pc.lastOf]

end Mlibc.Conc.Barrier
