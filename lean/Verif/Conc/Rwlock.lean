import Verif.Conc.Base
/-
Reader/writer locks: `pthread_rwlock_init`, `rdlock`, `wrlock`, `tryrdlock`, `trywrlock`, `clockrdlock`, `clockwrlock`,
`unlock` (options/posix/generic/pthread.cpp L1137-1476; `timedrdlock` and `timedwrlock` call the clock variants), called
by any number of threads in any interleaving. Property C40.
Simplifications: a deadline may pass whenever it is checked; the count of readers is unbounded; `unlock` is called only
by a thread that holds the lock (for reading or writing), as POSIX requires.
-/
set_option linter.unusedSimpArgs false
namespace Mlibc.Conc.Rwlock

/-- What is being acquired. -/
inductive Kind where | rd | wr
  deriving DecidableEq, Repr

/-- What follows the release of the mutex `m`. -/
inductive After where
  /-- the read lock has been acquired -/
  | gotR
  /-- the end of `pthread_rwlock_unlock` -/
  | unlocked
  /-- `trywrlock` found readers; in `clockwrlock` (`timed`) the blocking path follows -/
  | busy (timed : Bool)
  /-- `clockwrlock` timed out -/
  | timedOut
  deriving DecidableEq, Repr

/-- The mutex word `m`: free, or taken with (exclusive bit, waiters bit). -/
abbrev MWord := Option (Bool × Bool)

/-- The reader count `rc` and its waiters bit. -/
abbrev RWord := Nat × Bool

/-- Where a thread is. `timed` marks the clock variants. -/
inductive Pc where
  | out
  /-- `rwlock_m_lock` before the load. L1140 -/
  | mload (k : Kind) (timed : Bool)
  /-- in its loop with this value of `m_expected`. L1141 -/
  | mloop (k : Kind) (timed : Bool) (e : MWord)
  /-- before `FutexWait` for the word (excl, waiters = true). L1163 -/
  | mfut (k : Kind) (timed : Bool) (excl : Bool)
  | msleep (k : Kind) (timed : Bool)
  /-- `rwlock_m_trylock` before the load. L1199 -/
  | tload (k : Kind) (timed : Bool)
  /-- before its compare-exchange. L1205 -/
  | tcas (k : Kind) (timed : Bool)
  /-- before `rc.fetch_add(1)`. L1394, L1407 -/
  | radd
  /-- `rwlock_m_unlock` before the exchange. L1226 -/
  | munl (a : After)
  /-- before its `FutexWake`. L1228 -/
  | mwake (a : After)
  /-- `trywrlock` before loading the reader count. L1287 -/
  | wtry (timed : Bool)
  /-- `wrlock` before loading the reader count. L1306, L1325, L1350 -/
  | wload (timed : Bool)
  /-- in its loop with this value of `rc_expected`. L1307 -/
  | wloop (timed : Bool) (e : RWord)
  /-- before `FutexWait` for the count `n` with the waiters bit. L1323 -/
  | wfut (timed : Bool) (n : Nat)
  | wsleep (timed : Bool)
  /-- `pthread_rwlock_unlock` before the load. `w` (not part of the program): the thread releases a write lock. L1444 -/
  | ul (w : Bool)
  /-- in the loop of the read-unlock with this value of `rc_expected`. L1451 -/
  | dec (e : RWord)
  /-- before `FutexWake` on the reader count. L1464 -/
  | rcwake
  deriving DecidableEq, Repr

inductive Err where | busy | again | timedOut
  deriving DecidableEq, Repr

/-- Observable events: calls and returns. -/
inductive Lab where
  | tau
  | call (k : Kind) (try_ : Bool)
  /-- a lock function returned 0 -/
  | got (k : Kind)
  | fail (k : Kind) (e : Err)
  /-- `pthread_rwlock_unlock` is called by a thread holding the lock for `k` -/
  | unlock (k : Kind)
  | unlocked
  deriving DecidableEq, Repr

/-- `own`, `readers`, `rh` and `writer` are not part of the program: who took `m`; one entry for each unit of the reader
count; how many read locks each thread holds; who holds the write lock. -/
structure St where
  m : MWord
  rc : RWord
  own : Option Tid
  readers : List Tid
  rh : Tid → Nat
  writer : Option Tid
  pc : Tid → Pc

/-- `FutexWake(m, all)`: sleepers go on with `m_expected = 0`. L1179 -/
def wakeM (pc : Tid → Pc) : Tid → Pc := fun u =>
  match pc u with
  | .msleep k d => .mloop k d none
  | p => p

/-- `FutexWake(rc, all)`: sleepers load the count again. L1327 -/
def wakeRc (pc : Tid → Pc) : Tid → Pc := fun u =>
  match pc u with
  | .wsleep d => .wload d
  | p => p

/-- After taking `m`. -/
def taken : Kind → Bool → Pc
  | .rd, _ => .radd
  | .wr, d => .wload d

/-- After `trylock` took `m`. -/
def tryTaken : Kind → Bool → Pc
  | .rd, _ => .radd
  | .wr, d => .wtry d

/-- Where the thread goes after releasing `m`. -/
def After.next : After → Pc
  | .gotR | .unlocked | .busy false | .timedOut => .out
  | .busy true => .mload .wr true

def After.lab : After → Lab
  | .gotR => .got .rd
  | .unlocked => .unlocked
  | .busy false => .fail .wr .busy
  | .busy true => .tau
  | .timedOut => .fail .wr .timedOut

/-- Read locks held by `t` after it returns. -/
def After.hold (a : After) (rh : Tid → Nat) (t : Tid) : Tid → Nat :=
  match a with
  | .gotR => upd rh t (rh t + 1)
  | _ => rh

inductive Step (t : Tid) : St → Lab → St → Prop where
  | callLock {s} (k) : s.pc t = .out → Step t s (.call k false) { s with pc := upd s.pc t (.mload k false) }
  /-- try variants, and (`timed`) clock variants, which try first -/
  | callTry {s} (k timed) : s.pc t = .out →
      Step t s (.call k (!timed)) { s with pc := upd s.pc t (.tload k timed) }
  -- rwlock_m_lock. L1137-1194
  | mload {s k d} : s.pc t = .mload k d → Step t s .tau { s with pc := upd s.pc t (.mloop k d s.m) }
  | mtake {s k d} : s.pc t = .mloop k d none → s.m = none → Step t s .tau
      { s with m := some (k == .wr, false), own := some t, pc := upd s.pc t (taken k d) }
  | mtakeFail {s k d} : s.pc t = .mloop k d none → s.m ≠ none →
      Step t s .tau { s with pc := upd s.pc t (.mloop k d s.m) }
  | mbit {s k d x} : s.pc t = .mloop k d (some (x, false)) → s.m = some (x, false) → Step t s .tau
      { s with m := some (x, true), pc := upd s.pc t (.mfut k d x) }
  | mbitFail {s k d x} : s.pc t = .mloop k d (some (x, false)) → s.m ≠ some (x, false) → Step t s .tau
      { s with pc := upd s.pc t (.mloop k d s.m) }
  | mbitSet {s k d x} : s.pc t = .mloop k d (some (x, true)) → Step t s .tau
      { s with pc := upd s.pc t (.mfut k d x) }
  | mexpired {s k x} : s.pc t = .mfut k true x → Step t s (.fail k .timedOut) { s with pc := upd s.pc t .out }
  | msleep {s k d x} : s.pc t = .mfut k d x → s.m = some (x, true) → Step t s .tau
      { s with pc := upd s.pc t (.msleep k d) }
  | magain {s k d x} : s.pc t = .mfut k d x → s.m ≠ some (x, true) → Step t s .tau
      { s with pc := upd s.pc t (.mloop k d none) }
  | mspurious {s k d} : s.pc t = .msleep k d → Step t s .tau { s with pc := upd s.pc t (.mloop k d none) }
  | mtimeout {s k} : s.pc t = .msleep k true → Step t s (.fail k .timedOut) { s with pc := upd s.pc t .out }
  -- rwlock_m_trylock. L1196-1221
  | tfree {s k d} : s.pc t = .tload k d → s.m = none → Step t s .tau { s with pc := upd s.pc t (.tcas k d) }
  | ttake {s k d} : s.pc t = .tcas k d → s.m = none → Step t s .tau
      { s with m := some (k == .wr, false), own := some t, pc := upd s.pc t (tryTaken k d) }
  | tagain {s d b} : s.pc t = .tload .rd d ∨ s.pc t = .tcas .rd d → s.m = some (false, b) →
      Step t s (.fail .rd .again) { s with pc := upd s.pc t .out }
  | tbusy {s k x b} : s.pc t = .tload k false ∨ s.pc t = .tcas k false → s.m = some (x, b) → k = .wr ∨ x = true →
      Step t s (.fail k .busy) { s with pc := upd s.pc t .out }
  | tbusyTimed {s k x b} : s.pc t = .tload k true ∨ s.pc t = .tcas k true → s.m = some (x, b) → k = .wr ∨ x = true →
      Step t s .tau { s with pc := upd s.pc t (.mload k true) }
  -- readers. L1389-1441
  | radd {s} : s.pc t = .radd → Step t s .tau
      { s with rc := (s.rc.1 + 1, s.rc.2), readers := t :: s.readers, pc := upd s.pc t (.munl .gotR) }
  -- rwlock_m_unlock. L1224-1229
  | munl {s a x} : s.pc t = .munl a → s.m = some (x, false) → Step t s a.lab
      { s with m := none, own := none, rh := a.hold s.rh t, pc := upd s.pc t a.next }
  | munlWake {s a x} : s.pc t = .munl a → s.m = some (x, true) → Step t s .tau
      { s with m := none, own := none, pc := upd s.pc t (.mwake a) }
  | mwake {s a} : s.pc t = .mwake a → Step t s a.lab
      { s with rh := a.hold s.rh t, pc := upd (wakeM s.pc) t a.next }
  -- writers. L1277-1387
  | wtryGot {s d} : s.pc t = .wtry d → s.rc = (0, false) → Step t s (.got .wr)
      { s with writer := some t, pc := upd s.pc t .out }
  | wtryBusy {s d} : s.pc t = .wtry d → s.rc ≠ (0, false) → Step t s .tau
      { s with pc := upd s.pc t (.munl (.busy d)) }
  | wload {s d} : s.pc t = .wload d → Step t s .tau { s with pc := upd s.pc t (.wloop d s.rc) }
  | wgot {s d} : s.pc t = .wloop d (0, false) → Step t s (.got .wr)
      { s with writer := some t, pc := upd s.pc t .out }
  | wbit {s d n} : s.pc t = .wloop d (n, false) → n ≠ 0 → s.rc = (n, false) → Step t s .tau
      { s with rc := (n, true), pc := upd s.pc t (.wfut d n) }
  | wbitFail {s d n} : s.pc t = .wloop d (n, false) → n ≠ 0 → s.rc ≠ (n, false) → Step t s .tau
      { s with pc := upd s.pc t (.wloop d s.rc) }
  | wbitSet {s d n} : s.pc t = .wloop d (n, true) → Step t s .tau { s with pc := upd s.pc t (.wfut d n) }
  | wexpired {s n} : s.pc t = .wfut true n → Step t s .tau { s with pc := upd s.pc t (.munl .timedOut) }
  | wsleep {s d n} : s.pc t = .wfut d n → s.rc = (n, true) → Step t s .tau { s with pc := upd s.pc t (.wsleep d) }
  | wagain {s d n} : s.pc t = .wfut d n → s.rc ≠ (n, true) → Step t s .tau { s with pc := upd s.pc t (.wload d) }
  | wspurious {s d} : s.pc t = .wsleep d → Step t s .tau { s with pc := upd s.pc t (.wload d) }
  | wtimeout {s} : s.pc t = .wsleep true → Step t s .tau { s with pc := upd s.pc t (.munl .timedOut) }
  -- pthread_rwlock_unlock. L1443-1480
  | callUnlockR {s} : s.pc t = .out → s.rh t ≠ 0 → Step t s (.unlock .rd)
      { s with rh := upd s.rh t (s.rh t - 1), pc := upd s.pc t (.ul false) }
  | callUnlockW {s} : s.pc t = .out → s.writer = some t → Step t s (.unlock .wr)
      { s with writer := none, pc := upd s.pc t (.ul true) }
  | ulW {s w} : s.pc t = .ul w → s.rc = (0, false) → Step t s .tau { s with pc := upd s.pc t (.munl .unlocked) }
  | ulR {s w} : s.pc t = .ul w → s.rc ≠ (0, false) → Step t s .tau { s with pc := upd s.pc t (.dec s.rc) }
  | decLast {s} : s.pc t = .dec (1, true) → s.rc = (1, true) → Step t s .tau
      { s with rc := (0, false), readers := s.readers.erase t, pc := upd s.pc t .rcwake }
  | dec {s n b} : s.pc t = .dec (n, b) → ¬ (n = 1 ∧ b = true) → n ≠ 0 → s.rc = (n, b) → Step t s .unlocked
      { s with rc := (n - 1, b), readers := s.readers.erase t, pc := upd s.pc t .out }
  /-- the weak compare-exchange fails -/
  | decFail {s e} : s.pc t = .dec e → Step t s .tau { s with pc := upd s.pc t (.dec s.rc) }
  | rcwake {s} : s.pc t = .rcwake → Step t s .unlocked { s with pc := upd (wakeRc s.pc) t .out }

/-- `pthread_rwlock_init` -/
def Init (s : St) : Prop :=
  s.m = none ∧ s.rc = (0, false) ∧ s.own = none ∧ s.readers = [] ∧ (∀ t, s.rh t = 0) ∧ s.writer = none ∧
  ∀ t, s.pc t = .out

def Sys (s : St) (e : Tid × Lab) (s' : St) : Prop := Step e.1 s e.2 s'

/-! ## Specification -/

/-- How often thread `t` has acquired the lock for `k`. -/
def acquired (tr : List (Tid × Lab)) (k : Kind) (t : Tid) : Nat := tr.countP (fun e => e.1 = t ∧ e.2 = .got k)

/-- How often thread `t` has begun to release a lock it held for `k`. -/
def released (tr : List (Tid × Lab)) (k : Kind) (t : Tid) : Nat := tr.countP (fun e => e.1 = t ∧ e.2 = .unlock k)

/-- Thread `t` holds the lock for `k`: it has acquired it more often than it has begun to release it. -/
def Holds (tr : List (Tid × Lab)) (k : Kind) (t : Tid) : Prop := released tr k t < acquired tr k t

/-! ## Invariant -/

/-- The thread owns the mutex `m` in this state. -/
def Pc.owns : Pc → Bool
  | .radd | .munl _ | .wtry _ | .wload _ | .wloop _ _ | .wfut _ _ | .wsleep _ | .ul true => true
  | _ => false

/-- Units of the reader count the thread accounts for besides the read locks it holds. -/
def Pc.inR : Pc → Nat
  | .munl .gotR | .mwake .gotR | .ul false | .dec _ => 1
  | _ => 0

/-- The thread took `m` as a reader. -/
def Pc.asReader : Pc → Bool
  | .radd | .munl .gotR => true
  | _ => false

structure Inv (s : St) : Prop where
  cnt : s.rc.1 = s.readers.length
  bit : s.rc.2 = true → s.readers ≠ []
  mem : ∀ t, s.readers.count t = s.rh t + (s.pc t).inR
  own : s.own = none ↔ s.m = none
  ownPc : ∀ t, (s.pc t).owns = true → s.own = some t
  ownOr : ∀ t, s.own = some t → (s.pc t).owns = true ∨ s.writer = some t
  wr : ∀ t, s.writer = some t → (s.pc t).owns = false ∧ s.own = some t ∧ s.readers = []
  ulw : ∀ t, s.pc t = .ul true → s.readers = []
  wz : ∀ t d b, s.pc t = .wloop d (0, b) → s.readers = []
  rdr : ∀ t b, s.m = some (false, b) → s.own = some t → (s.pc t).asReader = true
  decNz : ∀ t e, s.pc t = .dec e → e.1 ≠ 0
  sleepM : ∀ t k d, s.pc t = .msleep k d → (∃ x, s.m = some (x, true)) ∨ ∃ u a, s.pc u = .mwake a
  sleepR : ∀ t d, s.pc t = .wsleep d → s.rc.2 = true ∨ ∃ u, s.pc u = .rcwake

theorem upd_pc (s : St) (t u : Tid) (x : Pc) : upd s.pc t x u = if u = t then x else s.pc u := rfl
grind_pattern upd_pc => upd s.pc t x, s.pc u

theorem inv_init (s : St) (h : Init s) : Inv s := by
  obtain ⟨h1, h2, h3, h4, h5, h6, h7⟩ := h
  constructor <;> simp [h1, h2, h3, h4, h5, h6, h7, Pc.owns, Pc.inR]

/-- Steps that change nothing but where the thread is. -/
theorem inv_pc {s : St} {t : Tid} {x : Pc} (h : Inv s) (ho : x.owns = (s.pc t).owns) (hr : x.inR = (s.pc t).inR)
    (ha : (s.pc t).asReader = true → x.asReader = true) (hk : ∀ a, s.pc t ≠ .mwake a) (hk2 : s.pc t ≠ .rcwake)
    (hul : x = .ul true → s.readers = []) (hwz : ∀ d b, x = .wloop d (0, b) → s.readers = [])
    (hdec : ∀ e, x = .dec e → e.1 ≠ 0) (hsm : ∀ k d, x = .msleep k d → ∃ x, s.m = some (x, true))
    (hsr : ∀ d, x = .wsleep d → s.rc.2 = true) : Inv { s with pc := upd s.pc t x } := by
  obtain ⟨h1, h2, h3, h4, h5, h6, h7, h8, h9, h10, h11, h12, h13⟩ := h
  constructor
  · exact h1
  · exact h2
  · intro u; simp only [upd_apply]; split
    · rename_i e; rw [e, hr]; exact h3 t
    · exact h3 u
  · exact h4
  · intro u; simp only [upd_apply]; split
    · rename_i e; rw [e, ho]; exact h5 t
    · exact h5 u
  · intro u hu; simp only [upd_apply]; split
    · rename_i e; rw [ho]; rw [e] at hu ⊢; exact h6 t hu
    · exact h6 u hu
  · intro u hu; simp only [upd_apply]; split
    · rename_i e; rw [ho]; rw [e] at hu ⊢; exact h7 t hu
    · exact h7 u hu
  · intro u; simp only [upd_apply]; split
    · exact hul
    · exact h8 u
  · intro u d b; simp only [upd_apply]; split
    · exact hwz d b
    · exact h9 u d b
  · intro u b hm hu; simp only [upd_apply]; split
    · rename_i e; rw [e] at hu; exact ha (h10 t b hm hu)
    · exact h10 u b hm hu
  · intro u e; simp only [upd_apply]; split
    · exact hdec e
    · exact h11 u e
  · intro u k d; simp only [upd_apply]
    have key : (∃ v a, s.pc v = .mwake a) → ∃ v a, (if v = t then x else s.pc v) = .mwake a := by
      rintro ⟨v, a, hv⟩
      exact ⟨v, a, by rw [if_neg (by rintro rfl; exact hk a hv)]; exact hv⟩
    split
    · intro e; exact .inl (hsm k d e)
    · intro e; exact (h12 u k d e).imp id key
  · intro u d; simp only [upd_apply]
    have key : (∃ v, s.pc v = .rcwake) → ∃ v, (if v = t then x else s.pc v) = .rcwake := by
      rintro ⟨v, hv⟩
      exact ⟨v, by rw [if_neg (by rintro rfl; exact hk2 hv)]; exact hv⟩
    split
    · intro e; exact .inl (hsr d e)
    · intro e; exact (h13 u d e).imp id key

theorem wakeM_apply (pc : Tid → Pc) (u : Tid) : (wakeM pc u).owns = (pc u).owns ∧ (wakeM pc u).inR = (pc u).inR ∧
    (wakeM pc u).asReader = (pc u).asReader ∧ (∀ k d, wakeM pc u ≠ .msleep k d) ∧
    ((∃ k d, pc u = .msleep k d ∧ wakeM pc u = .mloop k d none) ∨ wakeM pc u = pc u) := by
  unfold wakeM
  cases h : pc u <;> simp [Pc.owns, Pc.inR, Pc.asReader]

theorem wakeRc_apply (pc : Tid → Pc) (u : Tid) : (wakeRc pc u).owns = (pc u).owns ∧ (wakeRc pc u).inR = (pc u).inR ∧
    (wakeRc pc u).asReader = (pc u).asReader ∧ (∀ d, wakeRc pc u ≠ .wsleep d) ∧
    ((∃ d, pc u = .wsleep d ∧ wakeRc pc u = .wload d) ∨ wakeRc pc u = pc u) := by
  unfold wakeRc
  cases h : pc u <;> simp [Pc.owns, Pc.inR, Pc.asReader]

theorem rc_zero {s : St} (h : Inv s) : s.rc = (0, false) ↔ s.readers = [] := by
  have h1 := h.cnt
  have h2 := h.bit
  constructor
  · intro h0; rw [h0] at h1; exact List.length_eq_zero_iff.1 h1.symm
  · intro h0
    rw [h0] at h1 h2
    rcases hrc : s.rc with ⟨n, b⟩
    rw [hrc] at h1 h2
    simp_all

theorem reader_mem {s : St} (h : Inv s) {t : Tid} (ht : (s.pc t).inR ≠ 0) : t ∈ s.readers := by
  have := h.mem t
  exact List.count_pos_iff.1 (by omega)

theorem count_single (t u : Tid) : List.count u [t] = if u = t then 1 else 0 := by
  rw [List.count_singleton]
  by_cases h : u = t
  · simp [h]
  · have h2 : ¬ t = u := fun e => h e.symm
    simp [h, h2]

local macro "pcs" h:ident "[" ls:Lean.Parser.Tactic.simpLemma,* "]" : tactic =>
  `(tactic| (refine inv_pc $h ?_ ?_ ?_ ?_ ?_ ?_ ?_ ?_ ?_ ?_ <;> simp [Pc.owns, Pc.inR, Pc.asReader, $ls,*]))

set_option maxHeartbeats 2000000 in
theorem inv_step {s s' : St} {e : Tid × Lab} (h : Inv s) (hs : Sys s e s') : Inv s' := by
  obtain ⟨t, l⟩ := e
  simp only [Sys] at hs
  have hrz := rc_zero h
  have hz : ∀ b, s.rc = (0, b) → s.readers = [] := by
    intro b h0; have := h.cnt; rw [h0] at this; exact List.length_eq_zero_iff.1 this.symm
  have hm := fun ht => reader_mem h (t := t) ht
  cases hs
  case callLock hpc => pcs h [hpc]
  case callTry hpc => pcs h [hpc]
  case mload hpc => pcs h [hpc]
  case mtakeFail hpc _ => pcs h [hpc]
  case mbitFail hpc _ => pcs h [hpc]
  case mbitSet hpc => pcs h [hpc]
  case mexpired hpc => pcs h [hpc]
  case msleep hpc hmm => pcs h [hpc, hmm]
  case magain hpc _ => pcs h [hpc]
  case mspurious hpc => pcs h [hpc]
  case mtimeout hpc => pcs h [hpc]
  case tfree hpc _ => pcs h [hpc]
  case tagain hpc _ => rcases hpc with hpc | hpc <;> pcs h [hpc]
  case tbusy hpc _ _ => rcases hpc with hpc | hpc <;> pcs h [hpc]
  case tbusyTimed hpc _ _ => rcases hpc with hpc | hpc <;> pcs h [hpc]
  case wload hpc =>
    pcs h [hpc]
    exact ⟨⟨fun _ => hz _, fun _ => hz _⟩, fun _ => hz _, fun _ => hz _⟩
  case wbitFail hpc _ _ =>
    pcs h [hpc]
    exact ⟨⟨fun _ => hz _, fun _ => hz _⟩, fun _ => hz _, fun _ => hz _⟩
  case wtryBusy hpc _ => pcs h [hpc]
  case wbitSet n hpc => pcs h [hpc]
  case wexpired hpc => pcs h [hpc]
  case wsleep hpc hr => pcs h [hpc, hr]
  case wagain hpc _ => pcs h [hpc]
  case wspurious hpc => pcs h [hpc]
  case wtimeout hpc => pcs h [hpc]
  case ulW w hpc hr =>
    cases w with
    | false =>
      have := hm (by simp [hpc, Pc.inR])
      rw [hrz.1 hr] at this; simp at this
    | true => pcs h [hpc]
  case ulR w hpc hr =>
    cases w with
    | false =>
      have : s.rc.1 ≠ 0 := by
        intro h0; exact hr (hrz.2 (hz s.rc.2 (by rw [← h0])))
      pcs h [hpc, this]
    | true => exact absurd (hrz.2 (h.ulw t hpc)) hr
  case decFail e hpc =>
    have : s.rc.1 ≠ 0 := by
      intro h0
      have := hm (by simp [hpc, Pc.inR])
      rw [hz s.rc.2 (by rw [← h0])] at this; simp at this
    pcs h [hpc, this]
  all_goals
    obtain ⟨h1, h2, h3, h4, h5, h6, h7, h8, h9, h10, h11, h12, h13⟩ := h
  case mtake k d hpc hmm =>
    cases k <;> constructor <;> simp only [taken] <;> intros <;> grind [Pc.owns, Pc.inR, Pc.asReader]
  case ttake k d hpc hmm =>
    cases k <;> constructor <;> simp only [tryTaken] <;> intros <;> grind [Pc.owns, Pc.inR, Pc.asReader]
  case mbit k d x hpc hmm =>
    constructor <;> (try simp only) <;> intros <;> grind [Pc.owns, Pc.inR, Pc.asReader]
  case radd hpc =>
    have ho := h5 t (by simp [hpc, Pc.owns])
    have hw : ∀ u, s.writer ≠ some u := by grind [Pc.owns]
    have hu : ∀ u, s.pc u = .ul true → False := by grind [Pc.owns]
    have hwl : ∀ u d b, s.pc u = .wloop d (0, b) → False := by grind [Pc.owns]
    constructor <;> (try simp only [List.count_cons, List.length_cons]) <;> intros <;>
      grind [Pc.owns, Pc.inR, Pc.asReader]
  case munl a x hpc hmm =>
    have ho := h5 t (by simp [hpc, Pc.owns])
    cases a with
    | busy d => cases d <;> constructor <;> simp only [After.hold, After.next] <;> intros <;> grind [Pc.owns, Pc.inR, Pc.asReader]
    | _ => constructor <;> simp only [After.hold, After.next] <;> intros <;> grind [Pc.owns, Pc.inR, Pc.asReader]
  case munlWake a x hpc hmm =>
    have ho := h5 t (by simp [hpc, Pc.owns])
    have hx := upd_pc s t t (.mwake a)
    have hia : (Pc.mwake a).inR = (Pc.munl a).inR := by cases a <;> rfl
    constructor <;> (try simp only) <;> intros <;> grind [Pc.owns, Pc.inR, Pc.asReader]
  case wtryGot d hpc hr =>
    have ho := h5 t (by simp [hpc, Pc.owns])
    constructor <;> (try simp only) <;> intros <;> grind [Pc.owns, Pc.inR, Pc.asReader]
  case wgot d hpc =>
    have ho := h5 t (by simp [hpc, Pc.owns])
    constructor <;> (try simp only) <;> intros <;> grind [Pc.owns, Pc.inR, Pc.asReader]
  case wbit d n hpc hn hr =>
    constructor <;> (try simp only) <;> intros <;> grind [Pc.owns, Pc.inR, Pc.asReader]
  case callUnlockR hpc hr =>
    constructor <;> (try simp only) <;> intros <;> grind [Pc.owns, Pc.inR, Pc.asReader]
  case callUnlockW hpc hw =>
    constructor <;> (try simp only) <;> intros <;> grind [Pc.owns, Pc.inR, Pc.asReader]
  case mwake a hpc =>
    have ho := h4
    have hwk := wakeM_apply s.pc
    have hni : (Pc.mwake a).inR = if a = .gotR then 1 else 0 := by cases a <;> rfl
    have hnx : a.next.inR = 0 ∧ a.next.owns = false ∧ a.next.asReader = false ∧
        (a.next = .out ∨ a.next = .mload .wr true) := by
      cases a with
      | busy d => cases d <;> simp [After.next, Pc.inR, Pc.owns, Pc.asReader]
      | _ => simp [After.next, Pc.inR, Pc.owns, Pc.asReader]
    have hhold : ∀ u, a.hold s.rh t u = if u = t ∧ a = .gotR then s.rh t + 1 else s.rh u := by
      intro u; cases a <;> simp [After.hold, upd_apply]
    constructor <;> (try simp only [hhold, upd_apply]) <;> intros <;> grind [Pc.owns, Pc.inR, Pc.asReader]
  case decLast hpc hr =>
    have hx := upd_pc s t t .rcwake
    have htm := hm (by simp [hpc, Pc.inR])
    have hlen : s.readers.length = 1 := by rw [← h1, hr]
    have hsing : s.readers = [t] := by
      match hl : s.readers with
      | [] => rw [hl] at hlen; simp at hlen
      | [a] => rw [hl] at htm; simp at htm; rw [htm]
      | a :: b :: c => rw [hl] at hlen; simp at hlen
    have her : s.readers.erase t = [] := by rw [hsing]; simp
    have hcnt : ∀ u, s.readers.count u = if u = t then 1 else 0 := by
      intro u; rw [hsing]; exact count_single t u
    rw [her]
    constructor <;> (try simp only) <;> intros <;> grind [Pc.owns, Pc.inR, Pc.asReader]
  case dec n b hpc hnb hn hr =>
    have htm := hm (by simp [hpc, Pc.inR])
    have hlen := List.length_erase_of_mem htm
    have hcnt : ∀ u, (s.readers.erase t).count u = s.readers.count u - if t = u then 1 else 0 := by
      intro u; rw [List.count_erase]; simp
    have hne : n ≠ 1 → s.readers.erase t ≠ [] := by
      intro h' h0; rw [h0] at hlen; rw [hr] at h1; simp only [List.length_nil] at hlen h1; omega
    constructor <;> (try simp only [hcnt]) <;> intros <;> grind [Pc.owns, Pc.inR, Pc.asReader]
  case rcwake hpc =>
    have hwk := wakeRc_apply s.pc
    constructor <;> (try simp only [upd_apply]) <;> intros <;> grind [Pc.owns, Pc.inR, Pc.asReader]

end Mlibc.Conc.Rwlock
