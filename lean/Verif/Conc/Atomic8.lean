import Verif.Base

/-!
# 64-bit atomic operations on m68k

The machine has no 64-bit atomic instructions; `__atomic_load_8`, `__atomic_store_8`,
`__atomic_exchange_8`, `__atomic_compare_exchange_8` and `__atomic_fetch_add_8`
(options/internal/m68k/atomics.cpp) take one of 32 locks, chosen by a hash of the address, and access the
object in two halves.  Any number of threads run; every step below is one atomic action of one thread, and
any thread can take the next step.
-/
namespace Mlibc.Atomic8

/-! ## Specification: what the operations do when nobody interferes -/

/-- An operation.  The word `expected` points to belongs to the caller; it is an argument here. -/
inductive Op
  | load
  | store (v : Nat)
  | exchange (v : Nat)
  | cas (expected desired : Nat)
  | fetchAdd (v : Nat)
deriving DecidableEq, Repr

/-- What the caller sees: nothing, a value, or (compare-exchange) whether it was stored and the word behind
    `expected` afterwards. -/
inductive Out
  | none
  | val (v : Nat)
  | cas (done : Bool) (expected : Nat)
deriving DecidableEq, Repr

/-- The new value and what the caller sees, when the operation is executed at once on an object with value
    `old`. -/
def Op.exec (old : Nat) : Op → Nat × Out
  | .load => (old, .val old)
  | .store v => (v % 2 ^ 64, .none)
  | .exchange v => (v % 2 ^ 64, .val old)
  | .cas e d => if old = e then (d % 2 ^ 64, .cas true e) else (old, .cas false old)
  | .fetchAdd v => ((old + v) % 2 ^ 64, .val old)

/-- An event of a run: a thread calls an operation on an object; the operation takes effect; the call
    returns. -/
inductive Event
  | call (t a : Nat) (o : Op)
  | effect (t a : Nat) (o : Op) (r : Out)
  | ret (t : Nat) (r : Out)
deriving DecidableEq, Repr

/-- The effects are those of a sequential execution, one operation at a time: started with the values `m`,
    they give what was seen, and the values `m'`. -/
inductive Sequential : (Nat → Nat) → List Event → (Nat → Nat) → Prop
  | nil (m) : Sequential m [] m
  | call {m m' es t a o} : Sequential m es m' → Sequential m (es ++ [.call t a o]) m'
  | ret {m m' es t r} : Sequential m es m' → Sequential m (es ++ [.ret t r]) m'
  | effect {m m' es t a o} : Sequential m es m' →
      Sequential m (es ++ [.effect t a o (o.exec (m' a)).2]) (fun b => if b = a then (o.exec (m' a)).1 else m' b)

/-- How far a thread is with its current call. -/
inductive Phase
  | idle
  | called (a : Nat) (o : Op)
  | effective (r : Out)
deriving DecidableEq, Repr

/-- The events of a thread: call, effect, return, and so on; the effect is that of the operation called, and
    the call returns what the effect gave.  So every operation takes effect between its call and its return. -/
inductive Follows (t : Nat) : List Event → Phase → Prop
  | nil : Follows t [] .idle
  | call {es a o} : Follows t es .idle → Follows t (es ++ [.call t a o]) (.called a o)
  | effect {es a o r} : Follows t es (.called a o) → Follows t (es ++ [.effect t a o r]) (.effective r)
  | ret {es r} : Follows t es (.effective r) → Follows t (es ++ [.ret t r]) .idle
  | other {es p e} : Follows t es p → (∀ a o, e ≠ .call t a o) → (∀ a o r, e ≠ .effect t a o r) →
      (∀ r, e ≠ .ret t r) → Follows t (es ++ [e]) p

/-- A history is linearizable: the operations take effect one after the other, each during its call. -/
def Linearizable (m : Nat → Nat) (es : List Event) : Prop :=
  (∃ m', Sequential m es m') ∧ ∀ t, ∃ p, Follows t es p

/-! ## The code -/

/-- atomics.cpp L21-27: `*access(ptr)` is two 32-bit accesses; the half of an object of value `v` in the upper,
    and in the lower 32 bits. -/
def high (v : Nat) : Nat := v / 2 ^ 32
/-- See `high`. -/
def low (v : Nat) : Nat := v % 2 ^ 32

/-- atomics.cpp L21-27: the value of two halves. -/
def join (h l : Nat) : Nat := h * 2 ^ 32 + l

/-- options/internal/m68k/atomics.cpp L63-115: the value that an operation stores, if it stores one, and what
    it gives, once `*access(ptr)` has been read. -/
def body (old : Nat) : Op → Option Nat × Out
  | .load => (none, .val old)                                                      -- L63-69
  | .store v => (some (v % 2 ^ 64), .none)                                         -- L71-76
  | .exchange v => (some (v % 2 ^ 64), .val old)                                   -- L78-85
  | .cas e d => if old = e then (some (d % 2 ^ 64), .cas true e) else (none, .cas false old)  -- L87-106
  | .fetchAdd v => (some ((old + v) % 2 ^ 64), .val old)                           -- L108-115

/-- Where a thread is in one of the functions (options/internal/m68k/atomics.cpp L63-115): not in one; before
    `l.lock()`; reading, with the halves read so far; writing the value `v`, with the halves still to be
    written; before the return.  The halves are accessed in any order. -/
inductive Pc
  | out
  | enter (a : Nat) (o : Op)
  | read (a : Nat) (o : Op) (h l : Option Nat)
  | write (a : Nat) (o : Op) (v : Nat) (r : Out) (h l : Bool)
  | unlock (a : Nat) (o : Op) (r : Out)
  | leave (r : Out)
deriving DecidableEq, Repr

/-- atomics.cpp L8-10: the state: the halves of the objects, the owners of the locks, the threads; and the events so far (which
    the code does not record). -/
structure St where
  hi : Nat → Nat
  lo : Nat → Nat
  owner : Nat → Option Nat
  pc : Nat → Pc
  log : List Event

/-- `f` with the value at `a` replaced. -/
def upd {α : Type} (f : Nat → α) (a : Nat) (v : α) : Nat → α := fun b => if b = a then v else f b

/-- options/internal/m68k/atomics.cpp L63-115: one step of thread `t`.  `hash` is the number of the lock (atomics.cpp L12-16): `mix_bits` of the address
    modulo 32, here any function of the address.  `lock` waits until the lock is free and `unlock` makes it
    free: mutual exclusion of `FutexLock` is another property. -/
inductive Step (hash : Nat → Nat) (t : Nat) : St → St → Prop
  | call {s} (a : Nat) (o : Op) : s.pc t = .out →
      Step hash t s { s with pc := upd s.pc t (.enter a o), log := s.log ++ [.call t a o] }
  | lock {s a o} : s.pc t = .enter a o → s.owner (hash a) = none →
      Step hash t s { s with owner := upd s.owner (hash a) (some t), pc := upd s.pc t (.read a o none none) }
  | readHigh {s a o l} : s.pc t = .read a o none l →
      Step hash t s { s with pc := upd s.pc t (.read a o (some (s.hi a)) l) }
  | readLow {s a o h} : s.pc t = .read a o h none →
      Step hash t s { s with pc := upd s.pc t (.read a o h (some (s.lo a))) }
  | decideWrite {s a o h l v r} : s.pc t = .read a o (some h) (some l) → body (join h l) o = (some v, r) →
      Step hash t s { s with pc := upd s.pc t (.write a o v r true true) }
  | decideSkip {s a o h l r} : s.pc t = .read a o (some h) (some l) → body (join h l) o = (none, r) →
      Step hash t s { s with pc := upd s.pc t (.unlock a o r) }
  | decideStore {s a v h l} : s.pc t = .read a (.store v) h l →
      Step hash t s { s with pc := upd s.pc t (.write a (.store v) (v % 2 ^ 64) .none true true) }
  | writeHigh {s a o v r l} : s.pc t = .write a o v r true l →
      Step hash t s { s with hi := upd s.hi a (high v), pc := upd s.pc t (.write a o v r false l) }
  | writeLow {s a o v r h} : s.pc t = .write a o v r h true →
      Step hash t s { s with lo := upd s.lo a (low v), pc := upd s.pc t (.write a o v r h false) }
  | written {s a o v r} : s.pc t = .write a o v r false false →
      Step hash t s { s with pc := upd s.pc t (.unlock a o r) }
  | unlock {s a o r} : s.pc t = .unlock a o r →
      Step hash t s { s with owner := upd s.owner (hash a) none, pc := upd s.pc t (.leave r),
                             log := s.log ++ [.effect t a o r] }
  | ret {s r} : s.pc t = .leave r →
      Step hash t s { s with pc := upd s.pc t .out, log := s.log ++ [.ret t r] }

/-- The start: the objects have the values `m`, which fit in 64 bits. -/
def init (m : Nat → Nat) : St where
  hi a := high (m a)
  lo a := low (m a)
  owner _ := none
  pc _ := .out
  log := []

/-- The states that can be reached, with any schedule. -/
inductive Reach (hash : Nat → Nat) (m : Nat → Nat) : St → Prop
  | init : Reach hash m (init m)
  | step {s s' t} : Reach hash m s → Step hash t s s' → Reach hash m s'

/-! ## Proof -/

theorem join_split (v : Nat) : join (high v) (low v) = v := by
  unfold join high low
  omega

/-- What is true of a thread's place: `M` are the values after the effects so far. -/
def Inside (hash : Nat → Nat) (M : Nat → Nat) (s : St) (t : Nat) : Pc → Prop
  | .out => Follows t s.log .idle
  | .enter a o => Follows t s.log (.called a o)
  | .read a o h l => Follows t s.log (.called a o) ∧ s.owner (hash a) = some t ∧
      s.hi a = high (M a) ∧ s.lo a = low (M a) ∧ (∀ x, h = some x → x = high (M a)) ∧ (∀ x, l = some x → x = low (M a))
  | .write a o v r h l => Follows t s.log (.called a o) ∧ s.owner (hash a) = some t ∧ o.exec (M a) = (v, r) ∧
      s.hi a = high (if h then M a else v) ∧ s.lo a = low (if l then M a else v)
  | .unlock a o r => Follows t s.log (.called a o) ∧ s.owner (hash a) = some t ∧
      ∃ v, o.exec (M a) = (v, r) ∧ s.hi a = high v ∧ s.lo a = low v
  | .leave r => Follows t s.log (.effective r)

/-- The object a thread works on while it has a lock. -/
def busy : Pc → Option Nat
  | .read a _ _ _ => some a
  | .write a _ _ _ _ _ => some a
  | .unlock a _ _ => some a
  | _ => none

/-- The invariant. -/
structure Inv (hash : Nat → Nat) (m : Nat → Nat) (s : St) : Prop where
  ex : ∃ M, Sequential m s.log M ∧ (∀ t, Inside hash M s t (s.pc t)) ∧
    (∀ a, (∀ t, busy (s.pc t) ≠ some a) → s.hi a = high (M a) ∧ s.lo a = low (M a))
  owned : ∀ t a, busy (s.pc t) = some a → s.owner (hash a) = some t

theorem body_exec {old : Nat} {o : Op} :
    o.exec old = ((body old o).1.getD old, (body old o).2) := by
  cases o with
  | cas e d => simp only [Op.exec, body]; split <;> rfl
  | _ => rfl

theorem upd_same {α : Type} (f : Nat → α) (a : Nat) (v : α) : upd f a v a = v := by simp [upd]
theorem upd_other {α : Type} (f : Nat → α) {a b : Nat} (v : α) (h : b ≠ a) : upd f a v b = f b := by simp [upd, h]

/-- What a step of another thread leaves true. -/
theorem inside_other {hash : Nat → Nat} {M M' : Nat → Nat} {s s' : St} {u : Nat} {p : Pc}
    (h : Inside hash M s u p) (hl : ∀ q, Follows u s.log q → Follows u s'.log q)
    (ho : ∀ a, busy p = some a → s.owner (hash a) = some u → s'.owner (hash a) = some u)
    (hh : ∀ a, busy p = some a → s'.hi a = s.hi a ∧ s'.lo a = s.lo a ∧ M' a = M a) : Inside hash M' s' u p := by
  cases p with
  | out => exact hl _ h
  | enter a o => exact hl _ h
  | read a o x y =>
    obtain ⟨h1, h2, h3, h4, h5, h6⟩ := h
    obtain ⟨e1, e2, e3⟩ := hh a rfl
    exact ⟨hl _ h1, ho a rfl h2, by rw [e1, e3, h3], by rw [e2, e3, h4], by rw [e3]; exact h5, by rw [e3]; exact h6⟩
  | write a o v r x y =>
    obtain ⟨h1, h2, h3, h4, h5⟩ := h
    obtain ⟨e1, e2, e3⟩ := hh a rfl
    exact ⟨hl _ h1, ho a rfl h2, by rw [e3, h3], by rw [e1, e3, h4], by rw [e2, e3, h5]⟩
  | unlock a o r =>
    obtain ⟨h1, h2, v, h3, h4, h5⟩ := h
    obtain ⟨e1, e2, e3⟩ := hh a rfl
    exact ⟨hl _ h1, ho a rfl h2, v, by rw [e3, h3], by rw [e1, h4], by rw [e2, h5]⟩
  | leave r => exact hl _ h

theorem follows_other {t u : Nat} (h : u ≠ t) {es : List Event} {e : Event}
    (he : (∃ a o, e = .call t a o) ∨ (∃ a o r, e = .effect t a o r) ∨ ∃ r, e = .ret t r) (q : Phase)
    (hf : Follows u es q) : Follows u (es ++ [e]) q := by
  refine .other hf ?_ ?_ ?_ <;>
  · intros
    rintro rfl
    rcases he with ⟨_, _, he⟩ | ⟨_, _, _, he⟩ | ⟨_, he⟩ <;> cases he <;> exact h rfl

/-- A step that changes no value: the values after the effects stay the same, thread `t` is now at `p`. -/
theorem inv_same {hash : Nat → Nat} {m : Nat → Nat} {s s' : St} {t : Nat} {p : Pc} (h : Inv hash m s)
    (hpc : s'.pc = upd s.pc t p)
    (hseq : ∀ M, Sequential m s.log M → Sequential m s'.log M)
    (hlog : ∀ u, u ≠ t → ∀ q, Follows u s.log q → Follows u s'.log q)
    (hown : ∀ u a, u ≠ t → s.owner (hash a) = some u → s'.owner (hash a) = some u)
    (hownt : ∀ a, busy p = some a → s'.owner (hash a) = some t)
    (hmem : ∀ a, busy (s.pc t) ≠ some a → s'.hi a = s.hi a ∧ s'.lo a = s.lo a)
    (hbusy : busy (s.pc t) = none ∨ busy p = busy (s.pc t))
    (hin : ∀ M, Inside hash M s t (s.pc t) →
      (∀ a, busy p = some a → busy (s.pc t) = none → s.hi a = high (M a) ∧ s.lo a = low (M a)) →
      Inside hash M s' t p)
    (hfree : ∀ a, busy p = some a → busy (s.pc t) = none → s.owner (hash a) = none) : Inv hash m s' := by
  obtain ⟨⟨M, h1, h2, h3⟩, h4⟩ := h
  have hne : ∀ u a, u ≠ t → busy (s.pc u) = some a → busy (s.pc t) ≠ some a := by
    intro u a hu hb hb'
    have e1 := h4 u a hb
    have e2 := h4 t a hb'
    rw [e1] at e2
    exact hu (Option.some.inj e2)
  refine ⟨⟨M, hseq M h1, fun u => ?_, fun a ha => ?_⟩, fun u a hb => ?_⟩
  · rw [hpc]
    by_cases hu : u = t
    · subst hu
      rw [upd_same]
      refine hin M (h2 u) (fun a hp hn => h3 a (fun w hw => ?_))
      have := h4 w a hw
      rw [hfree a hp hn] at this
      exact absurd this (by simp)
    · rw [upd_other _ _ hu]
      refine inside_other (h2 u) (hlog u hu) (fun a _ => hown u a hu) (fun a hb => ?_)
      obtain ⟨e1, e2⟩ := hmem a (hne u a hu hb)
      exact ⟨e1, e2, rfl⟩
  · rw [hpc] at ha
    have hp := ha t
    rw [upd_same] at hp
    have hb : busy (s.pc t) ≠ some a := by
      rcases hbusy with hb | hb
      · rw [hb]; simp
      · rw [← hb]; exact hp
    rw [(hmem a hb).1, (hmem a hb).2]
    refine h3 a (fun u => ?_)
    by_cases hu : u = t
    · subst hu; exact hb
    · have := ha u
      rwa [upd_other _ _ hu] at this
  · rw [hpc] at hb
    by_cases hu : u = t
    · subst hu
      rw [upd_same] at hb
      exact hownt a hb
    · rw [upd_other _ _ hu] at hb
      exact hown u a hu (h4 u a hb)

theorem inv_init (hash : Nat → Nat) (m : Nat → Nat) : Inv hash m (init m) :=
  ⟨⟨m, .nil m, fun _ => .nil, fun _ _ => ⟨rfl, rfl⟩⟩, fun _ _ h => by simp [init, busy] at h⟩

theorem inv_step {hash : Nat → Nat} {m : Nat → Nat} {s s' : St} {t : Nat} (h : Inv hash m s)
    (hs : Step hash t s s') : Inv hash m s' := by
  cases hs with
  | call a o hp =>
    exact inv_same (t := t) h rfl (fun M hM => .call hM)
      (fun u hu q => follows_other hu (Or.inl ⟨_, _, rfl⟩) q) (fun _ _ _ h => h) (fun a h => by simp [busy] at h)
      (fun _ _ => ⟨rfl, rfl⟩) (Or.inl (by rw [hp]; rfl)) (fun M hM _ => by rw [hp] at hM; exact .call hM)
      (fun a h => by simp [busy] at h)
  | @lock a o hp hfree =>
    refine inv_same (t := t) h rfl (fun M hM => hM) (fun _ _ _ h => h) (fun u b hu hb => ?_) (fun b hb => ?_)
      (fun _ _ => ⟨rfl, rfl⟩) (Or.inl (by rw [hp]; rfl)) (fun M hM hM' => ?_) (fun b hb _ => ?_)
    · show upd s.owner (hash a) (some t) (hash b) = some u
      rw [upd_other _ _ (fun he => by rw [he, hfree] at hb; exact absurd hb (by simp))]
      exact hb
    · simp only [busy, Option.some.injEq] at hb
      subst hb
      exact upd_same _ _ _
    · rw [hp] at hM
      obtain ⟨e1, e2⟩ := hM' a rfl (by rw [hp]; rfl)
      exact ⟨hM, upd_same _ _ _, e1, e2, fun x h => by simp at h, fun x h => by simp at h⟩
    · simp only [busy, Option.some.injEq] at hb
      subst hb
      exact hfree
  | @readHigh a o l hp =>
    refine inv_same (t := t) h rfl (fun M hM => hM) (fun _ _ _ h => h) (fun _ _ _ h => h)
      (fun b hb => h.owned t b (by rw [hp]; exact hb)) (fun _ _ => ⟨rfl, rfl⟩) (Or.inr (by rw [hp]; rfl))
      (fun M hM _ => ?_) (fun b hb hn => by rw [hp] at hn; simp [busy] at hn)
    rw [hp] at hM
    obtain ⟨h1, h2, h3, h4, h5, h6⟩ := hM
    exact ⟨h1, h2, h3, h4, fun x hx => by rw [← Option.some.inj hx, h3], h6⟩
  | @readLow a o l hp =>
    refine inv_same (t := t) h rfl (fun M hM => hM) (fun _ _ _ h => h) (fun _ _ _ h => h)
      (fun b hb => h.owned t b (by rw [hp]; exact hb)) (fun _ _ => ⟨rfl, rfl⟩) (Or.inr (by rw [hp]; rfl))
      (fun M hM _ => ?_) (fun b hb hn => by rw [hp] at hn; simp [busy] at hn)
    rw [hp] at hM
    obtain ⟨h1, h2, h3, h4, h5, h6⟩ := hM
    exact ⟨h1, h2, h3, h4, h5, fun x hx => by rw [← Option.some.inj hx, h4]⟩
  | @decideWrite a o x y v r hp hb =>
    refine inv_same (t := t) h rfl (fun M hM => hM) (fun _ _ _ h => h) (fun _ _ _ h => h)
      (fun b hb => h.owned t b (by rw [hp]; exact hb)) (fun _ _ => ⟨rfl, rfl⟩) (Or.inr (by rw [hp]; rfl))
      (fun M hM _ => ?_) (fun b hb hn => by rw [hp] at hn; simp [busy] at hn)
    rw [hp] at hM
    obtain ⟨h1, h2, h3, h4, h5, h6⟩ := hM
    rw [h5 x rfl, h6 y rfl, join_split] at hb
    exact ⟨h1, h2, by rw [body_exec, hb]; rfl, h3, h4⟩
  | @decideSkip a o x y r hp hb =>
    refine inv_same (t := t) h rfl (fun M hM => hM) (fun _ _ _ h => h) (fun _ _ _ h => h)
      (fun b hb => h.owned t b (by rw [hp]; exact hb)) (fun _ _ => ⟨rfl, rfl⟩) (Or.inr (by rw [hp]; rfl))
      (fun M hM _ => ?_) (fun b hb hn => by rw [hp] at hn; simp [busy] at hn)
    rw [hp] at hM
    obtain ⟨h1, h2, h3, h4, h5, h6⟩ := hM
    rw [h5 x rfl, h6 y rfl, join_split] at hb
    exact ⟨h1, h2, M a, by rw [body_exec, hb]; rfl, h3, h4⟩
  | @decideStore a v x y hp =>
    refine inv_same (t := t) h rfl (fun M hM => hM) (fun _ _ _ h => h) (fun _ _ _ h => h)
      (fun b hb => h.owned t b (by rw [hp]; exact hb)) (fun _ _ => ⟨rfl, rfl⟩) (Or.inr (by rw [hp]; rfl))
      (fun M hM _ => ?_) (fun b hb hn => by rw [hp] at hn; simp [busy] at hn)
    rw [hp] at hM
    obtain ⟨h1, h2, h3, h4, h5, h6⟩ := hM
    exact ⟨h1, h2, rfl, h3, h4⟩
  | @writeHigh a o v r l hp =>
    refine inv_same (t := t) h rfl (fun M hM => hM) (fun _ _ _ h => h) (fun _ _ _ h => h)
      (fun b hb => h.owned t b (by rw [hp]; exact hb)) (fun b hb => ⟨upd_other _ _ ?_, rfl⟩) (Or.inr (by rw [hp]; rfl))
      (fun M hM _ => ?_) (fun b hb hn => by rw [hp] at hn; simp [busy] at hn)
    · rintro rfl
      rw [hp] at hb
      exact hb rfl
    · rw [hp] at hM
      obtain ⟨h1, h2, h3, h4, h5⟩ := hM
      exact ⟨h1, h2, h3, upd_same _ _ _, h5⟩
  | @writeLow a o v r l hp =>
    refine inv_same (t := t) h rfl (fun M hM => hM) (fun _ _ _ h => h) (fun _ _ _ h => h)
      (fun b hb => h.owned t b (by rw [hp]; exact hb)) (fun b hb => ⟨rfl, upd_other _ _ ?_⟩) (Or.inr (by rw [hp]; rfl))
      (fun M hM _ => ?_) (fun b hb hn => by rw [hp] at hn; simp [busy] at hn)
    · rintro rfl
      rw [hp] at hb
      exact hb rfl
    · rw [hp] at hM
      obtain ⟨h1, h2, h3, h4, h5⟩ := hM
      exact ⟨h1, h2, h3, h4, upd_same _ _ _⟩
  | @written a o v r hp =>
    refine inv_same (t := t) h rfl (fun M hM => hM) (fun _ _ _ h => h) (fun _ _ _ h => h)
      (fun b hb => h.owned t b (by rw [hp]; exact hb)) (fun _ _ => ⟨rfl, rfl⟩) (Or.inr (by rw [hp]; rfl))
      (fun M hM _ => ?_) (fun b hb hn => by rw [hp] at hn; simp [busy] at hn)
    rw [hp] at hM
    obtain ⟨h1, h2, h3, h4, h5⟩ := hM
    exact ⟨h1, h2, v, h3, h4, h5⟩
  | @unlock a o r hp =>
    obtain ⟨⟨M, h1, h2, h3⟩, h4⟩ := h
    have ht := h2 t
    rw [hp] at ht
    obtain ⟨hf, ho, v, he, hh, hl⟩ := ht
    have hne : ∀ u b, u ≠ t → busy (s.pc u) = some b → hash b ≠ hash a := by
      intro u b hu hb hab
      have := h4 u b hb
      rw [hab, ho] at this
      exact hu (Option.some.inj this).symm
    refine ⟨⟨fun b => if b = a then (o.exec (M a)).1 else M b, ?_, fun u => ?_, fun b hb => ?_⟩, fun u b hb => ?_⟩
    · have := h1.effect (t := t) (a := a) (o := o)
      rwa [he] at this ⊢
    · by_cases hu : u = t
      · subst hu
        simp only [upd_same]
        exact hf.effect
      · simp only [upd_other _ _ hu]
        refine inside_other (h2 u) (fun q => follows_other hu (Or.inr (Or.inl ⟨_, _, _, rfl⟩)) q)
          (fun b hb ho' => ?_) (fun b hb => ⟨rfl, rfl, ?_⟩)
        · show upd s.owner (hash a) none (hash b) = some u
          rw [upd_other _ _ (hne u b hu hb)]
          exact ho'
        · rw [if_neg]
          rintro rfl
          exact hne u b hu hb rfl
    · by_cases hba : b = a
      · subst hba
        simp only [if_true, he]
        exact ⟨hh, hl⟩
      · simp only [if_neg hba]
        refine h3 b (fun u hu => ?_)
        by_cases hut : u = t
        · subst hut
          rw [hp] at hu
          exact hba (Option.some.inj hu).symm
        · have := hb u
          simp only [upd_other _ _ hut] at this
          exact this hu
    · by_cases hu : u = t
      · subst hu
        simp only [upd_same, busy] at hb
        exact absurd hb (by simp)
      · simp only [upd_other _ _ hu] at hb
        show upd s.owner (hash a) none (hash b) = some u
        rw [upd_other _ _ (hne u b hu hb)]
        exact h4 u b hb
  | ret hp =>
    exact inv_same (t := t) h rfl (fun M hM => .ret hM)
      (fun u hu q => follows_other hu (Or.inr (Or.inr ⟨_, rfl⟩)) q) (fun _ _ _ h => h) (fun a h => by simp [busy] at h)
      (fun _ _ => ⟨rfl, rfl⟩) (Or.inl (by rw [hp]; rfl)) (fun M hM _ => by rw [hp] at hM; exact .ret hM)
      (fun a h => by simp [busy] at h)

theorem reach_inv {hash : Nat → Nat} {m : Nat → Nat} {s : St} (h : Reach hash m s) : Inv hash m s := by
  induction h with
  | init => exact inv_init hash m
  | step _ hs ih => exact inv_step ih hs

/-- **C111.** However the threads are scheduled, the history of calls is linearizable. -/
theorem atomic_linearizable (hash : Nat → Nat) (m : Nat → Nat) (s : St) (h : Reach hash m s) :
    Linearizable m s.log := by
  obtain ⟨⟨M, h1, h2, -⟩, -⟩ := reach_inv h
  refine ⟨⟨M, h1⟩, fun t => ?_⟩
  have := h2 t
  revert this
  cases s.pc t with
  | out => exact fun h => ⟨_, h⟩
  | enter a o => exact fun h => ⟨_, h⟩
  | read a o x y => exact fun h => ⟨_, h.1⟩
  | write a o v r x y => exact fun h => ⟨_, h.1⟩
  | unlock a o r => exact fun h => ⟨_, h.1⟩
  | leave r => exact fun h => ⟨_, h⟩

/-- **C111.** When no call is in progress, the object has the value that the operations, executed in the order
    of their effects, leave in it: no update is lost, none is torn. -/
theorem atomic_value (hash : Nat → Nat) (m : Nat → Nat) (s : St) (h : Reach hash m s)
    (hq : ∀ t, s.pc t = .out) :
    ∃ m', Sequential m s.log m' ∧ ∀ a, join (s.hi a) (s.lo a) = m' a := by
  obtain ⟨⟨M, h1, -, h3⟩, -⟩ := reach_inv h
  refine ⟨M, h1, fun a => ?_⟩
  obtain ⟨e1, e2⟩ := h3 a (fun t => by rw [hq t]; simp [busy])
  rw [e1, e2, join_split]

/-- The owner of a lock works on an object of that lock. -/
theorem reach_held {hash : Nat → Nat} {m : Nat → Nat} {s : St} (h : Reach hash m s) :
    ∀ k u, s.owner k = some u → ∃ a, busy (s.pc u) = some a ∧ hash a = k := by
  induction h with
  | init => intro k u h; simp [init] at h
  | @step s s' t hr hs ih =>
    have keep : ∀ (p : Pc), (busy (s.pc t) = none ∨ busy p = busy (s.pc t)) → ∀ k u, s.owner k = some u →
        ∃ a, busy (upd s.pc t p u) = some a ∧ hash a = k := by
      intro p hb k u hk
      obtain ⟨a, h1, h2⟩ := ih k u hk
      by_cases hu : u = t
      · subst hu
        rw [upd_same]
        rcases hb with hb | hb
        · rw [hb] at h1; exact absurd h1 (by simp)
        · exact ⟨a, by rw [hb, h1], h2⟩
      · rw [upd_other _ _ hu]
        exact ⟨a, h1, h2⟩
    cases hs with
    | call a o hp => exact keep _ (Or.inl (by rw [hp]; rfl))
    | @lock a o hp hfree =>
      intro k u hk
      by_cases hka : k = hash a
      · subst hka
        simp only [upd_same, Option.some.injEq] at hk
        subst hk
        exact ⟨a, by simp only [upd_same]; rfl, rfl⟩
      · simp only [upd_other _ _ hka] at hk
        exact keep _ (Or.inl (by rw [hp]; rfl)) k u hk
    | readHigh hp => exact keep _ (Or.inr (by rw [hp]; rfl))
    | readLow hp => exact keep _ (Or.inr (by rw [hp]; rfl))
    | decideWrite hp _ => exact keep _ (Or.inr (by rw [hp]; rfl))
    | decideSkip hp _ => exact keep _ (Or.inr (by rw [hp]; rfl))
    | decideStore hp => exact keep _ (Or.inr (by rw [hp]; rfl))
    | writeHigh hp => exact keep _ (Or.inr (by rw [hp]; rfl))
    | writeLow hp => exact keep _ (Or.inr (by rw [hp]; rfl))
    | written hp => exact keep _ (Or.inr (by rw [hp]; rfl))
    | @unlock a o r hp =>
      intro k u hk
      by_cases hka : k = hash a
      · subst hka
        simp only [upd_same] at hk
        exact absurd hk (by simp)
      · simp only [upd_other _ _ hka] at hk
        obtain ⟨b, h1, h2⟩ := ih k u hk
        have hu : u ≠ t := by
          rintro rfl
          rw [hp] at h1
          simp only [busy, Option.some.injEq] at h1
          exact hka (by rw [← h2, h1])
        simp only [upd_other _ _ hu]
        exact ⟨b, h1, h2⟩
    | ret hp => exact keep _ (Or.inl (by rw [hp]; rfl))

/-- A thread that is in a call and does not wait for a lock can take a step. -/
theorem step_of {hash : Nat → Nat} {s : St} {t : Nat}
    (h : ∀ a o, s.pc t = .enter a o → s.owner (hash a) = none) : ∃ s', Step hash t s s' := by
  cases hp : s.pc t with
  | out => exact ⟨_, .call 0 .load hp⟩
  | enter a o => exact ⟨_, .lock hp (h a o hp)⟩
  | read a o x y =>
    cases x with
    | none => exact ⟨_, .readHigh hp⟩
    | some x =>
      cases y with
      | none => exact ⟨_, .readLow hp⟩
      | some y =>
        cases hb : body (join x y) o with
        | mk v r =>
          cases v with
          | none => exact ⟨_, .decideSkip hp hb⟩
          | some v => exact ⟨_, .decideWrite hp hb⟩
  | write a o v r x y =>
    cases x with
    | true => exact ⟨_, .writeHigh hp⟩
    | false =>
      cases y with
      | true => exact ⟨_, .writeLow hp⟩
      | false => exact ⟨_, .written hp⟩
  | unlock a o r => exact ⟨_, .unlock hp⟩
  | leave r => exact ⟨_, .ret hp⟩

/-- **C111.** There is no deadlock: while some call is in progress, some thread that is in a call can take a
    step. -/
theorem atomic_progress (hash : Nat → Nat) (m : Nat → Nat) (s : St) (h : Reach hash m s) (t : Nat)
    (ht : s.pc t ≠ .out) : ∃ u s', s.pc u ≠ .out ∧ Step hash u s s' := by
  by_cases hw : ∀ a o, s.pc t = .enter a o → s.owner (hash a) = none
  · obtain ⟨s', hs⟩ := step_of hw
    exact ⟨t, s', ht, hs⟩
  · simp only [Classical.not_forall] at hw
    obtain ⟨a, o, hp, ho⟩ := hw
    cases hu : s.owner (hash a) with
    | none => exact absurd hu ho
    | some u =>
      obtain ⟨b, hb, -⟩ := reach_held h _ _ hu
      have hn : ∀ a o, s.pc u = .enter a o → s.owner (hash a) = none := by
        intro a o hp
        rw [hp] at hb
        exact absurd hb (by simp [busy])
      obtain ⟨s', hs⟩ := step_of hn
      refine ⟨u, s', fun hout => ?_, hs⟩
      rw [hout] at hb
      exact absurd hb (by simp [busy])

/-! ## A run -/

/-- Two threads add to the same object, which then has the sum; the second calls before the first returns, and
    the sum carries into the upper half. -/
example : ∃ s, Reach (fun _ => 0) (fun _ => 2 ^ 32 - 1) s ∧ (∀ t, s.pc t = .out) ∧
    join (s.hi 8) (s.lo 8) = 2 ^ 32 + 2 ∧
    s.log = [.call 1 8 (.fetchAdd 1), .call 2 8 (.fetchAdd 2), .effect 1 8 (.fetchAdd 1) (.val (2 ^ 32 - 1)),
      .effect 2 8 (.fetchAdd 2) (.val (2 ^ 32)), .ret 2 (.val (2 ^ 32)), .ret 1 (.val (2 ^ 32 - 1))] := by
  have h := Reach.init (hash := fun _ => 0) (m := fun _ => 2 ^ 32 - 1)
  replace h := h.step (.call (t := 1) 8 (.fetchAdd 1) rfl)
  replace h := h.step (.call (t := 2) 8 (.fetchAdd 2) rfl)
  replace h := h.step (.lock (t := 1) rfl rfl)
  replace h := h.step (.readHigh (t := 1) rfl)
  replace h := h.step (.readLow (t := 1) rfl)
  replace h := h.step (.decideWrite (t := 1) (v := 2 ^ 32) (r := .val (2 ^ 32 - 1)) rfl (by decide))
  replace h := h.step (.writeLow (t := 1) rfl)
  replace h := h.step (.writeHigh (t := 1) rfl)
  replace h := h.step (.written (t := 1) rfl)
  replace h := h.step (.unlock (t := 1) rfl)
  replace h := h.step (.lock (t := 2) rfl rfl)
  replace h := h.step (.readLow (t := 2) rfl)
  replace h := h.step (.readHigh (t := 2) rfl)
  replace h := h.step (.decideWrite (t := 2) (v := 2 ^ 32 + 2) (r := .val (2 ^ 32)) rfl (by decide))
  replace h := h.step (.writeHigh (t := 2) rfl)
  replace h := h.step (.writeLow (t := 2) rfl)
  replace h := h.step (.written (t := 2) rfl)
  replace h := h.step (.unlock (t := 2) rfl)
  replace h := h.step (.ret (t := 2) rfl)
  replace h := h.step (.ret (t := 1) rfl)
  refine ⟨_, h, fun t => ?_, by decide, rfl⟩
  by_cases h1 : t = 1
  · subst h1; rfl
  · by_cases h2 : t = 2
    · subst h2; rfl
    · simp [upd, init, h1, h2]

end Mlibc.Atomic8
