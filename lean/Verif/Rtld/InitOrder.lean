import Verif.Base

/-!
C62: the dynamic linker initialises every object once, after its dependencies, and destroys the
objects in the reverse order.

Objects are numbers. `deps o` are the dependencies of `o` in the order of its DT_NEEDED entries
(options/rtld/generic/linker.cpp L1126-1176), `opens o` the objects the initialisers of `o` pass to
dlopen, in that order.

Not modelled: how names become objects, what relocations do, TLS, the debugger's link map, scopes,
dlopen from several threads, initialisers that do not return. Opening an object again appends its
dependencies to its list once more (main.cpp L790); the lists only matter through their members and
the order of first appearance, so the model keeps the lists fixed.
-/

namespace Mlibc.InitOrder

/-! ### The code -/

/-- `for(auto x : list) body(x)`. -/
def loop {σ : Type} (f : Nat → σ → Res σ) : List Nat → σ → Res σ
  | [], s => .ok s
  | x :: xs, s => (f x s).bind (loop f xs)

/-- The state of the breadth-first search: `done` are the entries before the index `i`, `todo` the ones
from `i` on, `set` the hash set. options/rtld/generic/linker.cpp L1785-1792 -/
structure Bfs where
  done : List Nat
  todo : List Nat
  set : List Nat

/-- The inner loop over the dependencies. options/rtld/generic/linker.cpp L1807-1812 -/
def bfsDeps : List Nat → Bfs → Bfs
  | [], b => b
  | d :: ds, b =>
    if d ∈ b.set then bfsDeps ds b
    else bfsDeps ds { b with set := d :: b.set, todo := b.todo ++ [d] }

/-- The outer loop. `n` bounds the number of iterations; running out of it is reported as `ub` so that
the theorems have to show that it never happens. options/rtld/generic/linker.cpp L1792-1813 -/
def bfsLoop (deps : Nat → List Nat) : Nat → Bfs → Res (List Nat)
  | n, b =>
    match b.todo with
    | [] => .ok b.done
    | c :: rest =>
      match n with
      | 0 => .ub
      | n + 1 => bfsLoop deps n (bfsDeps (deps c) { b with done := b.done ++ [c], todo := rest })

/-- `Loader::_buildLinkBfs`; the root is not put into the set.
options/rtld/generic/linker.cpp L1782-1814 -/
def buildLinkBfs (deps : Nat → List Nat) (n root : Nat) : Res (List Nat) :=
  bfsLoop deps n { done := [], todo := [root], set := [] }

/-- What `_scheduleInit` reads and writes: the objects with `scheduledForInit`, those with
`onInitStack`, and `_initQueue`. options/rtld/generic/linker.hpp -/
structure Sched where
  sched : List Nat
  onStack : List Nat
  queue : List Nat

/-- `Loader::_scheduleInit`. The number is the depth of recursion the stack allows; exceeding it is
`ub`. options/rtld/generic/linker.cpp L2092-2107 -/
def scheduleInit (deps : Nat → List Nat) : Nat → Nat → Sched → Res Sched
  | 0, _, _ => .ub
  | n + 1, o, s =>
    (ensure (!decide (o ∈ s.onStack))).bind fun _ =>
    (ensure (!decide (o ∈ s.sched))).bind fun _ =>
    (loop (fun d s => if d ∈ s.sched then .ok s else scheduleInit deps n d s) (deps o)
      { s with onStack := o :: s.onStack, sched := o :: s.sched }).bind fun s =>
    .ok { s with queue := s.queue ++ [o], onStack := s.onStack.erase o }

/-- What can be observed: the initialisers of an object begin, return, its destructors run, its
relocations are applied. -/
inductive Ev where
  | start (o : Nat)
  | fin (o : Nat)
  | destr (o : Nat)
  | reloc (o : Nat)
  deriving DecidableEq, Repr

/-- The dynamic linker: objects whose `objectRts` is older than the current request, objects with
`wasLinked`, with `scheduledForInit`, with `onInitStack`, with `wasInitialized`, with `wasDestroyed`,
the destruct queue with its top first, and everything observed so far. -/
structure St where
  loaded : List Nat
  linked : List Nat
  sched : List Nat
  onStack : List Nat
  inited : List Nat
  destroyed : List Nat
  dq : List Nat
  log : List Ev

/-- Before the program is started. -/
def St.init : St := ⟨[], [], [], [], [], [], [], []⟩

/-- The relocation loop of `Loader::linkObjects`; `old` are the objects loaded by earlier requests.
Every object is taken to have a dynamic section. options/rtld/generic/linker.cpp L1829-1845 -/
def relocLoop (old : List Nat) : List Nat → St → Res St :=
  loop fun o st =>
    if o ∈ old then .ok st
    else (ensure (!decide (o ∈ st.linked))).bind fun _ => .ok { st with log := st.log ++ [.reloc o] }

/-- `Loader::linkObjects` after the search; the objects found were loaded just before
(main.cpp L770-799). options/rtld/generic/linker.cpp L1829-1900 -/
def linkObjects (bfs : List Nat) (st : St) : Res St :=
  (relocLoop st.loaded bfs { st with loaded := bfs ++ st.loaded }).bind fun st =>
  .ok { st with linked := bfs ++ st.linked }

/-- The first loop of `Loader::initObjects`. options/rtld/generic/linker.cpp L2078-2081 -/
def scheduleAll (deps : Nat → List Nat) (n : Nat) : List Nat → Sched → Res Sched :=
  loop fun o s => if o ∈ s.sched then .ok s else scheduleInit deps n o s

/-- `doInitialize` and `addObjectToDestructQueue`: the initialisers run between `start` and `fin` and
call `nested` for every object they open.
options/rtld/generic/linker.cpp L1345-1366, L516-518, L2083-2088 -/
def initOne (opens : Nat → List Nat) (nested : Nat → St → Res St) (o : Nat) (st : St) : Res St :=
  if o ∈ st.inited then .ok st
  else
    (ensure (decide (o ∈ st.linked))).bind fun _ =>
    (loop nested (opens o) { st with log := st.log ++ [.start o] }).bind fun st =>
    .ok { st with log := st.log ++ [.fin o], inited := o :: st.inited, dq := o :: st.dq }

/-- Program start and `dlopen`: link the objects, schedule them, initialise them. The first number
bounds how deeply initialisers may nest calls of dlopen, the second the recursion of
`_scheduleInit` and the search. options/rtld/generic/main.cpp L664-686, L797-799,
options/rtld/generic/linker.cpp L1816-1817, L2062-2089 -/
def openObj (deps opens : Nat → List Nat) (lim : Nat) : Nat → Nat → St → Res St
  | 0, _, _ => .ub
  | n + 1, root, st =>
    (buildLinkBfs deps lim root).bind fun bfs =>
    (linkObjects bfs st).bind fun st =>
    (scheduleAll deps lim bfs { sched := st.sched, onStack := st.onStack, queue := [] }).bind fun s =>
    loop (initOne opens (openObj deps opens lim n)) s.queue
      { st with sched := s.sched, onStack := s.onStack }

/-- Program start with `roots[0]` followed by calls of dlopen. -/
def openAll (deps opens : Nat → List Nat) (lim : Nat) (roots : List Nat) : Res St :=
  loop (openObj deps opens lim lim) roots St.init

/-- `ObjectRepository::destructObjects` and `doDestruct`. `more o` are objects the destructors of `o`
cause to be loaded and initialised, last one first. The number bounds the iterations.
options/rtld/generic/linker.cpp L522-528, L1368-1391 -/
def destructObjects (more : Nat → List Nat) : Nat → St → Res St
  | n, st =>
    match st.dq with
    | [] => .ok st
    | top :: _ =>
      match n with
      | 0 => .ub
      | n + 1 =>
        if top ∈ st.inited ∧ top ∉ st.destroyed then
          destructObjects more n { st with
            log := st.log ++ [.destr top], destroyed := top :: st.destroyed,
            inited := more top ++ st.inited, dq := (more top ++ st.dq).tail }
        else destructObjects more n { st with dq := st.dq.tail }

/-! ### Specification -/

/-- `x` depends on `y`, directly or indirectly, or is `y`. -/
inductive Reach (deps : Nat → List Nat) : Nat → Nat → Prop where
  | refl (x : Nat) : Reach deps x x
  | step {x y z : Nat} : Reach deps x y → z ∈ deps y → Reach deps x z

/-- The objects a run has to load: the ones opened, their dependencies, and what initialisers open. -/
inductive Needed (deps opens : Nat → List Nat) (roots : List Nat) : Nat → Prop where
  | root {r : Nat} : r ∈ roots → Needed deps opens roots r
  | dep {x y : Nat} : Needed deps opens roots x → y ∈ deps x → Needed deps opens roots y
  | opened {x y : Nat} : Needed deps opens roots x → y ∈ opens x → Needed deps opens roots y

/-- Among the observed events, `e` comes before `f`. -/
def EvBefore (e f : Ev) (log : List Ev) : Prop := ∃ a b, log = a ++ f :: b ∧ e ∈ a

/-- The initialisers of `d` have returned before those of `u` begin. -/
def DoneBefore (d u : Nat) (log : List Ev) : Prop := EvBefore (.fin d) (.start u) log

/-- The finitely many objects there are. -/
structure Finite (deps opens : Nat → List Nat) (V : List Nat) : Prop where
  deps : ∀ o ∈ V, ∀ d ∈ deps o, d ∈ V
  opens : ∀ o ∈ V, ∀ d ∈ opens o, d ∈ V

theorem Reach.trans {deps : Nat → List Nat} {x y z : Nat} (h : Reach deps x y) (h' : Reach deps y z) :
    Reach deps x z := by
  induction h' with
  | refl => exact h
  | step _ hz ih => exact .step ih hz

theorem Reach.head {deps : Nat → List Nat} {x y z : Nat} (h : y ∈ deps x) (h' : Reach deps y z) :
    Reach deps x z := (Reach.step (.refl x) h).trans h'

theorem Reach.closed {deps : Nat → List Nat} {S : Nat → Prop} (hS : ∀ x, S x → ∀ y ∈ deps x, S y)
    {x y : Nat} (h : Reach deps x y) (hx : S x) : S y := by
  induction h with
  | refl => exact hx
  | step _ hz ih => exact hS _ ih _ hz

theorem EvBefore.append {e f : Ev} {l : List Ev} (h : EvBefore e f l) (m : List Ev) :
    EvBefore e f (l ++ m) := by
  obtain ⟨a, b, rfl, h⟩ := h
  exact ⟨a, b ++ m, by simp, h⟩

/-! ### The breadth-first search -/

theorem loop_cons {σ : Type} (f : Nat → σ → Res σ) (x : Nat) (xs : List Nat) (s : σ) :
    loop f (x :: xs) s = (f x s).bind (loop f xs) := rfl

theorem loop_append {σ : Type} (f : Nat → σ → Res σ) (xs ys : List Nat) (s : σ) :
    loop f (xs ++ ys) s = (loop f xs s).bind (loop f ys) := by
  induction xs generalizing s with
  | nil => rfl
  | cons x xs ih =>
    simp only [List.cons_append, loop]
    cases f x s with
    | ok a => simp only [Res.bind]; exact ih a
    | ub => rfl
    | panic => rfl

/-- A loop keeps an invariant. -/
theorem loop_inv {σ : Type} {f : Nat → σ → Res σ} (P : σ → Prop) (xs : List Nat)
    (hf : ∀ x ∈ xs, ∀ s, P s → ∃ s', f x s = .ok s' ∧ P s') (s : σ) (h : P s) :
    ∃ s', loop f xs s = .ok s' ∧ P s' := by
  induction xs generalizing s with
  | nil => exact ⟨s, rfl, h⟩
  | cons x xs ih =>
    obtain ⟨s', e, h'⟩ := hf x (by simp) s h
    obtain ⟨s'', e', h''⟩ := ih (fun y hy => hf y (List.mem_cons_of_mem _ hy)) s' h'
    exact ⟨s'', by simp only [loop, e, Res.bind]; exact e', h''⟩

/-- What holds of the search from `root` at every iteration. -/
structure BInv (deps : Nat → List Nat) (root : Nat) (b : Bfs) : Prop where
  ex : ∃ t, b.done ++ b.todo = root :: t ∧ t.Nodup ∧ ∀ x, x ∈ t ↔ x ∈ b.set
  reach : ∀ x ∈ b.done ++ b.todo, Reach deps root x
  closed : ∀ x ∈ b.done, ∀ d ∈ deps x, d ∈ b.set
  pre : ∀ x ∈ b.set, ∃ y, Reach deps root y ∧ x ∈ deps y

theorem bfsDeps_spec {deps : Nat → List Nat} {root : Nat} (ds : List Nat) (b : Bfs)
    (hex : ∃ t, b.done ++ b.todo = root :: t ∧ t.Nodup ∧ ∀ x, x ∈ t ↔ x ∈ b.set)
    (hre : ∀ x ∈ b.done ++ b.todo, Reach deps root x) (hds : ∀ d ∈ ds, Reach deps root d) :
    (∃ t, (bfsDeps ds b).done ++ (bfsDeps ds b).todo = root :: t ∧ t.Nodup ∧
      ∀ x, x ∈ t ↔ x ∈ (bfsDeps ds b).set) ∧
    (∀ x ∈ (bfsDeps ds b).done ++ (bfsDeps ds b).todo, Reach deps root x) ∧
    (bfsDeps ds b).done = b.done ∧ (∀ x ∈ b.set, x ∈ (bfsDeps ds b).set) ∧
    (∀ d ∈ ds, d ∈ (bfsDeps ds b).set) ∧
    (∀ x ∈ (bfsDeps ds b).set, x ∈ b.set ∨ x ∈ ds) := by
  induction ds generalizing b with
  | nil => exact ⟨hex, hre, rfl, fun x h => h, by simp, fun x h => .inl h⟩
  | cons d ds ih =>
    by_cases hd : d ∈ b.set
    · have := ih b hex hre (fun x hx => hds x (by simp [hx]))
      simp only [bfsDeps, if_pos hd]
      refine ⟨this.1, this.2.1, this.2.2.1, this.2.2.2.1, ?_, ?_⟩
      · intro x hx
        rcases List.mem_cons.1 hx with rfl | hx
        · exact this.2.2.2.1 _ hd
        · exact this.2.2.2.2.1 x hx
      · intro x hx
        rcases this.2.2.2.2.2 x hx with h | h
        · exact .inl h
        · exact .inr (by simp [h])
    · simp only [bfsDeps, if_neg hd]
      obtain ⟨t, et, hn, hm⟩ := hex
      have := ih { b with set := d :: b.set, todo := b.todo ++ [d] }
        ⟨t ++ [d], by simp only [← List.append_assoc, et]; simp, by
          rw [List.nodup_append]
          refine ⟨hn, by simp, ?_⟩
          intro x hx y hy
          simp only [List.mem_singleton] at hy
          subst hy
          rintro rfl
          exact hd ((hm _).1 hx), by
          intro x; simp [hm x, or_comm]⟩
        (by
          intro x hx
          simp only [← List.append_assoc] at hx
          rcases List.mem_append.1 hx with hx | hx
          · exact hre x hx
          · simp only [List.mem_singleton] at hx
            subst hx
            exact hds _ (by simp))
        (fun x hx => hds x (by simp [hx]))
      refine ⟨this.1, this.2.1, this.2.2.1, fun x hx => this.2.2.2.1 x (by simp [hx]), ?_, ?_⟩
      · intro x hx
        rcases List.mem_cons.1 hx with rfl | hx
        · exact this.2.2.2.1 _ (by simp)
        · exact this.2.2.2.2.1 x hx
      · intro x hx
        rcases this.2.2.2.2.2 x hx with h | h
        · rcases List.mem_cons.1 h with rfl | h
          · exact .inr (by simp)
          · exact .inl h
        · exact .inr (by simp [h])

/-- Distinct members of a list are no more than its length. -/
theorem nodup_le {t V : List Nat} (hn : t.Nodup) (hs : ∀ x ∈ t, x ∈ V) : t.length ≤ V.length := by
  induction t generalizing V with
  | nil => simp
  | cons x t ih =>
    have hx : x ∈ V := hs x (by simp)
    have hn' := List.nodup_cons.1 hn
    have := ih (V := V.erase x) hn'.2 (by
      intro y hy
      have hne : y ≠ x := by rintro rfl; exact hn'.1 hy
      exact (List.mem_erase_of_ne hne).2 (hs y (by simp [hy])))
    rw [List.length_erase_of_mem hx] at this
    have hpos : 0 < V.length := List.length_pos_of_mem hx
    simp only [List.length_cons]
    omega

/-- The result of a finished search. -/
def BfsResult (deps : Nat → List Nat) (root : Nat) (l : List Nat) : Prop :=
  (∃ t, l = root :: t ∧ t.Nodup ∧ (root ∈ t ↔ ∃ x, Reach deps root x ∧ root ∈ deps x)) ∧
  (∀ x, x ∈ l ↔ Reach deps root x)

theorem bfs_exit {deps : Nat → List Nat} {root : Nat} {b : Bfs} (hb : BInv deps root b)
    (htd : b.todo = []) : BfsResult deps root b.done := by
  obtain ⟨t, et, hnd, hm⟩ := hb.ex
  rw [htd, List.append_nil] at et
  have hall : ∀ x, Reach deps root x → x ∈ b.done := by
    intro x hx
    refine Reach.closed (S := (· ∈ b.done)) ?_ hx (by simp [et])
    intro y hy d hd
    have := (hm d).2 (hb.closed y hy d hd)
    rw [et]; simp [this]
  refine ⟨⟨t, et, hnd, ?_⟩, fun x => ⟨fun hx => hb.reach x (by simp [hx]), hall x⟩⟩
  rw [hm]
  exact ⟨hb.pre root, fun ⟨x, hx, hd⟩ => hb.closed x (hall x hx) _ hd⟩

theorem bfsLoop_spec {deps : Nat → List Nat} {V : List Nat} (hV : ∀ o ∈ V, ∀ d ∈ deps o, d ∈ V)
    {root : Nat} (hr : root ∈ V) (n : Nat) (b : Bfs) (hb : BInv deps root b)
    (hn : V.length + 1 ≤ b.done.length + n) :
    ∃ l, bfsLoop deps n b = .ok l ∧ BfsResult deps root l := by
  induction n generalizing b with
  | zero =>
    obtain ⟨t, et, hnd, hm⟩ := hb.ex
    have hsub : ∀ x ∈ t, x ∈ V := by
      intro x hx
      exact Reach.closed (S := (· ∈ V)) hV (hb.reach x (by rw [et]; simp [hx])) hr
    have hle := nodup_le hnd hsub
    have hlen := congrArg List.length et
    simp only [List.length_append, List.length_cons] at hlen
    cases htd : b.todo with
    | cons c rest => rw [htd] at hlen; simp at hlen; omega
    | nil =>
      rw [bfsLoop.eq_def]; simp only [htd]
      exact ⟨_, rfl, bfs_exit hb htd⟩
  | succ n ih =>
    cases htd : b.todo with
    | nil =>
      rw [bfsLoop.eq_def]; simp only [htd]
      exact ⟨_, rfl, bfs_exit hb htd⟩
    | cons c rest =>
      rw [bfsLoop.eq_def]; simp only [htd]
      have e1 : (b.done ++ [c]) ++ rest = b.done ++ b.todo := by simp [htd]
      have hc : Reach deps root c := hb.reach c (by simp [htd])
      have hd : ∀ d ∈ deps c, Reach deps root d := fun d hd => hc.step hd
      have hs := bfsDeps_spec (deps := deps) (root := root) (deps c)
        { b with done := b.done ++ [c], todo := rest } (by simp only [e1]; exact hb.ex)
        (by simp only [e1]; exact hb.reach) hd
      refine ih _ ⟨hs.1, hs.2.1, ?_, ?_⟩ ?_
      · rw [hs.2.2.1]
        intro x hx d hd'
        simp only [List.mem_append, List.mem_singleton] at hx
        rcases hx with hx | rfl
        · exact hs.2.2.2.1 d (hb.closed x hx d hd')
        · exact hs.2.2.2.2.1 d hd'
      · intro x hx
        rcases hs.2.2.2.2.2 x hx with h | h
        · exact hb.pre x h
        · exact ⟨c, hc, h⟩
      · rw [hs.2.2.1]; simp only [List.length_append, List.length_singleton]; omega

theorem buildLinkBfs_spec {deps : Nat → List Nat} {V : List Nat}
    (hV : ∀ o ∈ V, ∀ d ∈ deps o, d ∈ V) {root : Nat} (hr : root ∈ V) (n : Nat)
    (hn : V.length + 1 ≤ n) :
    ∃ l, buildLinkBfs deps n root = .ok l ∧ BfsResult deps root l :=
  bfsLoop_spec hV hr n _ ⟨⟨[], by simp⟩, by simp; exact .refl _, by simp, by simp⟩ (by simpa using hn)

/-! ### Scheduling -/

/-- Objects not yet scheduled. -/
def left (V S : List Nat) : Nat := (V.filter (· ∉ S)).length

theorem left_mono {V S T : List Nat} (h : ∀ x ∈ S, x ∈ T) : left V T ≤ left V S := by
  unfold left
  induction V with
  | nil => simp
  | cons v V ih =>
    by_cases hT : v ∈ T
    · by_cases hS : v ∈ S
      · simp only [List.filter_cons, hT, hS]; simpa using ih
      · simp only [List.filter_cons, hT, hS]; simp at ih ⊢; omega
    · have hS : v ∉ S := fun hS => hT (h v hS)
      simp only [List.filter_cons, hT, hS]; simpa using ih

theorem left_lt {V S T : List Nat} (h : ∀ x ∈ S, x ∈ T) {o : Nat} (ho : o ∈ V) (hS : o ∉ S)
    (hT : o ∈ T) : left V T < left V S := by
  induction V with
  | nil => simp at ho
  | cons v V ih =>
    have hm : left V T ≤ left V S := left_mono h
    by_cases hv : v = o
    · subst hv
      unfold left at hm ⊢
      simp only [List.filter_cons, hT, hS]; simp at hm ⊢; omega
    · have := ih (by simpa [Ne.symm hv] using ho)
      unfold left at this ⊢
      by_cases hvT : v ∈ T
      · by_cases hvS : v ∈ S
        · simp only [List.filter_cons, hvT, hvS]; simpa using this
        · simp only [List.filter_cons, hvT, hvS]; simp at this ⊢; omega
      · have hvS : v ∉ S := fun h' => hvT (h v h')
        simp only [List.filter_cons, hvT, hvS]; simpa using this

/-- `d` precedes `x` in the queue. -/
def Before (d x : Nat) (q : List Nat) : Prop := ∃ a b, q = a ++ x :: b ∧ d ∈ a

theorem Before.append {d x : Nat} {q : List Nat} (h : Before d x q) (m : List Nat) :
    Before d x (q ++ m) := by
  obtain ⟨a, b, rfl, h⟩ := h
  exact ⟨a, b ++ m, by simp, h⟩

/-- Between two calls of `_scheduleInit`, relative to the objects `old` scheduled by earlier requests. -/
structure SInv (deps : Nat → List Nat) (old : List Nat) (s : Sched) : Prop where
  mem : ∀ x, x ∈ s.sched ↔ x ∈ old ∨ x ∈ s.onStack ∨ x ∈ s.queue
  nodup : s.queue.Nodup
  stack : s.onStack.Nodup
  disj : ∀ x ∈ s.queue, x ∉ old ∧ x ∉ s.onStack
  disj' : ∀ x ∈ s.onStack, x ∉ old
  order : ∀ x ∈ s.queue, ∀ d ∈ deps x, d ∈ old ∨ Before d x s.queue ∨ Reach deps d x

/-- A call of `_scheduleInit` or of a loop of them leads from `s` to `s'`; everything new depends on
`src`. -/
structure SExt (deps : Nat → List Nat) (src : Nat → Prop) (s s' : Sched) : Prop where
  stack : s'.onStack = s.onStack
  sched : ∀ x ∈ s.sched, x ∈ s'.sched
  queue : ∃ m, s'.queue = s.queue ++ m
  reach : ∀ x ∈ s'.sched, x ∈ s.sched ∨ ∃ r, src r ∧ Reach deps r x
  /-- the dependencies of everything new are scheduled -/
  closed : ∀ x ∈ s'.queue, x ∈ s.queue ∨ ∀ d ∈ deps x, d ∈ s'.sched

theorem SExt.refl {deps : Nat → List Nat} {src : Nat → Prop} (s : Sched) : SExt deps src s s :=
  ⟨rfl, fun _ h => h, ⟨[], by simp⟩, fun _ h => .inl h, fun _ h => .inl h⟩

theorem SExt.trans {deps : Nat → List Nat} {src : Nat → Prop} {s t u : Sched}
    (h : SExt deps src s t) (h' : SExt deps src t u) : SExt deps src s u := by
  refine ⟨h'.stack.trans h.stack, fun x hx => h'.sched x (h.sched x hx), ?_, ?_, ?_⟩
  · obtain ⟨m, e⟩ := h.queue
    obtain ⟨m', e'⟩ := h'.queue
    exact ⟨m ++ m', by rw [e', e, List.append_assoc]⟩
  · intro x hx
    rcases h'.reach x hx with hx | hx
    · exact h.reach x hx
    · exact .inr hx
  · intro x hx
    rcases h'.closed x hx with hx | hx
    · rcases h.closed x hx with hx | hx
      · exact .inl hx
      · exact .inr fun d hd => h'.sched d (hx d hd)
    · exact .inr hx

theorem SExt.mono {deps : Nat → List Nat} {src src' : Nat → Prop} {s t : Sched}
    (h : SExt deps src s t) (hs : ∀ r, src r → ∃ r', src' r' ∧ Reach deps r' r) :
    SExt deps src' s t := by
  refine ⟨h.stack, h.sched, h.queue, ?_, h.closed⟩
  intro x hx
  rcases h.reach x hx with hx | ⟨r, hr, hx⟩
  · exact .inl hx
  · obtain ⟨r', hr', e⟩ := hs r hr
    exact .inr ⟨r', hr', e.trans hx⟩

/-- The loop over some objects, given what one call does. -/
theorem schedLoop_spec {deps : Nat → List Nat} {V old : List Nat} {n : Nat}
    (call : ∀ o s, o ∈ V → SInv deps old s → o ∉ s.sched → left V s.sched ≤ n →
      (∀ g ∈ s.onStack, Reach deps g o) →
      ∃ s', scheduleInit deps n o s = .ok s' ∧ SInv deps old s' ∧ SExt deps (· = o) s s' ∧ o ∈ s'.queue)
    (ds : List Nat) (hds : ∀ d ∈ ds, d ∈ V) (s : Sched) (hs : SInv deps old s)
    (hn : left V s.sched ≤ n) (hg : ∀ g ∈ s.onStack, ∀ d ∈ ds, Reach deps g d) :
    ∃ s', loop (fun d s => if d ∈ s.sched then .ok s else scheduleInit deps n d s) ds s = .ok s' ∧
      SInv deps old s' ∧ SExt deps (· ∈ ds) s s' ∧ ∀ d ∈ ds, d ∈ s'.sched := by
  induction ds generalizing s with
  | nil => exact ⟨s, rfl, hs, .refl s, by simp⟩
  | cons d ds ih =>
    have hds' : ∀ d ∈ ds, d ∈ V := fun x hx => hds x (by simp [hx])
    by_cases hd : d ∈ s.sched
    · obtain ⟨s', e, h1, h2, h3⟩ := ih hds' s hs hn (fun g hg' x hx => hg g hg' x (by simp [hx]))
      refine ⟨s', by simp only [loop, if_pos hd, Res.bind]; exact e, h1,
        h2.mono fun r hr => ⟨r, by simp [hr], .refl _⟩, ?_⟩
      intro x hx
      rcases List.mem_cons.1 hx with rfl | hx
      · exact h2.sched _ hd
      · exact h3 x hx
    · obtain ⟨t, e, ht, hte, htq⟩ := call d s (hds d (by simp)) hs hd hn
        (fun g hg' => hg g hg' d (by simp))
      obtain ⟨s', e', h1, h2, h3⟩ := ih hds' t ht (Nat.le_trans (left_mono hte.sched) hn)
        (fun g hg' x hx => hg g (hte.stack ▸ hg') x (by simp [hx]))
      refine ⟨s', by simp only [loop, if_neg hd, e, Res.bind]; exact e', h1,
        (hte.mono fun r hr => ⟨r, by simp [hr], .refl _⟩).trans
          (h2.mono fun r hr => ⟨r, by simp [hr], .refl _⟩), ?_⟩
      intro x hx
      rcases List.mem_cons.1 hx with rfl | hx
      · exact h2.sched _ ((ht.mem _).2 (.inr (.inr htq)))
      · exact h3 x hx

theorem scheduleInit_spec {deps : Nat → List Nat} {V old : List Nat}
    (hV : ∀ o ∈ V, ∀ d ∈ deps o, d ∈ V) (n : Nat) :
    ∀ o s, o ∈ V → SInv deps old s → o ∉ s.sched → left V s.sched ≤ n →
      (∀ g ∈ s.onStack, Reach deps g o) →
      ∃ s', scheduleInit deps n o s = .ok s' ∧ SInv deps old s' ∧ SExt deps (· = o) s s' ∧
        o ∈ s'.queue := by
  induction n with
  | zero =>
    intro o s ho _ hno hl
    have := left_lt (V := V) (S := s.sched) (T := o :: s.sched) (fun x hx => by simp [hx]) ho hno
      (by simp)
    omega
  | succ n ih =>
    intro o s ho hs hno hl hg
    have hnst : o ∉ s.onStack := fun h => hno ((hs.mem o).2 (.inr (.inl h)))
    have hnq : o ∉ s.queue := fun h => hno ((hs.mem o).2 (.inr (.inr h)))
    have hnold : o ∉ old := fun h => hno ((hs.mem o).2 (.inl h))
    have hlt := left_lt (V := V) (S := s.sched) (T := o :: s.sched) (fun x hx => by simp [hx]) ho hno
      (by simp)
    have hs1 : SInv deps old { s with onStack := o :: s.onStack, sched := o :: s.sched } := by
      refine ⟨?_, hs.nodup, List.nodup_cons.2 ⟨hnst, hs.stack⟩, ?_, ?_, hs.order⟩
      · intro x
        simp only [List.mem_cons, hs.mem x]
        grind
      · intro x hx
        refine ⟨(hs.disj x hx).1, ?_⟩
        simp only [List.mem_cons, not_or]
        exact ⟨by rintro rfl; exact hnq hx, (hs.disj x hx).2⟩
      · intro x hx
        rcases List.mem_cons.1 hx with rfl | hx
        · exact hnold
        · exact hs.disj' x hx
    obtain ⟨t, e, ht, hte, hd⟩ := schedLoop_spec (V := V) (old := old) (n := n) ih (deps o) (hV o ho)
      { s with onStack := o :: s.onStack, sched := o :: s.sched } hs1 (by show left V (o :: s.sched) ≤ n; omega)
      (by
        intro g hg' d hd
        rcases List.mem_cons.1 hg' with rfl | hg'
        · exact .step (.refl _) hd
        · exact .step (hg g hg') hd)
    have hst : t.onStack = o :: s.onStack := hte.stack
    refine ⟨{ t with queue := t.queue ++ [o], onStack := t.onStack.erase o }, ?_, ?_, ?_, ?_⟩
    · simp only [scheduleInit, hnst, hno, decide_false, Bool.not_false, ensure_true, Res.bind, e]
    · have hotq : o ∉ t.queue := fun h => (ht.disj o h).2 (by rw [hst]; simp)
      have her : t.onStack.erase o = s.onStack := by rw [hst]; simp
      refine ⟨?_, ?_, ?_, ?_, ?_, ?_⟩
      · intro x
        simp only [her, ht.mem x, hst, List.mem_append, List.mem_cons, List.mem_singleton]
        grind
      · rw [List.nodup_append]
        refine ⟨ht.nodup, by simp, ?_⟩
        intro x hx y hy
        simp only [List.mem_singleton] at hy
        subst hy
        rintro rfl
        exact hotq hx
      · simp only [her]; exact hs.stack
      · intro x hx
        simp only [her]
        simp only [List.mem_append, List.mem_singleton] at hx
        rcases hx with hx | rfl
        · exact ⟨(ht.disj x hx).1, fun h => (ht.disj x hx).2 (by rw [hst]; simp [h])⟩
        · exact ⟨hnold, hnst⟩
      · intro x hx
        simp only [her] at hx
        exact hs.disj' x hx
      · intro x hx d hdx
        simp only [List.mem_append, List.mem_singleton] at hx
        rcases hx with hx | rfl
        · rcases ht.order x hx d hdx with h | h | h
          · exact .inl h
          · exact .inr (.inl (h.append _))
          · exact .inr (.inr h)
        · rcases (ht.mem d).1 (hd d hdx) with h | h | h
          · exact .inl h
          · rw [hst] at h
            rcases List.mem_cons.1 h with rfl | h
            · exact .inr (.inr (.refl _))
            · exact .inr (.inr (hg d h))
          · exact .inr (.inl ⟨t.queue, [], by simp, h⟩)
    · have her : t.onStack.erase o = s.onStack := by rw [hst]; simp
      obtain ⟨m, em⟩ := hte.queue
      refine ⟨her, fun x hx => hte.sched x (by simp [hx]), ⟨m ++ [o], by simp [em]⟩, ?_, ?_⟩
      · intro x hx
        rcases hte.reach x hx with h | ⟨r, hr, h⟩
        · rcases List.mem_cons.1 h with rfl | h
          · exact .inr ⟨_, rfl, .refl _⟩
          · exact .inl h
        · exact .inr ⟨o, rfl, .head hr h⟩
      · intro x hx
        simp only [List.mem_append, List.mem_singleton] at hx
        rcases hx with hx | rfl
        · exact hte.closed x hx
        · exact .inr hd
    · simp

theorem scheduleAll_spec {deps : Nat → List Nat} {V old : List Nat}
    (hV : ∀ o ∈ V, ∀ d ∈ deps o, d ∈ V) (n : Nat) (hn : V.length ≤ n) (bfs : List Nat)
    (hb : ∀ d ∈ bfs, d ∈ V) :
    ∃ s', scheduleAll deps n bfs { sched := old, onStack := [], queue := [] } = .ok s' ∧
      SInv deps old s' ∧ SExt deps (· ∈ bfs) { sched := old, onStack := [], queue := [] } s' ∧
      ∀ d ∈ bfs, d ∈ s'.sched :=
  schedLoop_spec (scheduleInit_spec hV n) bfs hb _
    ⟨by simp, by simp, by simp, by simp, by simp, by simp⟩
    (Nat.le_trans (List.length_filter_le _ _) hn) (by simp)

/-! ### Relocation -/

theorem relocLoop_spec (old bfs : List Nat) (st : St) (h : ∀ o, o ∉ old → o ∉ st.linked) :
    relocLoop old bfs st =
      .ok { st with log := st.log ++ (bfs.filter (· ∉ old)).map Ev.reloc } := by
  unfold relocLoop
  induction bfs generalizing st with
  | nil => simp [loop]
  | cons o bfs ih =>
    by_cases ho : o ∈ old
    · rw [loop_cons, if_pos ho]
      refine (ih st h).trans ?_
      simp [ho]
    · rw [loop_cons, if_neg ho]
      simp only [h o ho, decide_false, Bool.not_false, ensure_true]
      refine (ih { st with log := st.log ++ [.reloc o] } h).trans ?_
      simp [ho]

theorem linkObjects_spec (bfs : List Nat) (st : St) (h : ∀ o, o ∈ st.loaded ↔ o ∈ st.linked) :
    linkObjects bfs st = .ok { st with
      loaded := bfs ++ st.loaded, linked := bfs ++ st.linked,
      log := st.log ++ (bfs.filter (· ∉ st.loaded)).map Ev.reloc } := by
  unfold linkObjects
  rw [relocLoop_spec _ _ _ (by intro o ho; simpa [← h o] using ho)]
  rfl

theorem count_reloc (l : List Nat) (o : Nat) : (l.map Ev.reloc).count (.reloc o) = l.count o := by
  induction l with
  | nil => rfl
  | cons x l ih =>
    simp only [List.map_cons, List.count_cons, ih]
    by_cases h : x = o <;> simp [h]

theorem mem_map_reloc {l : List Nat} {e : Ev} (h : e ∈ l.map Ev.reloc) : ∃ o, e = .reloc o := by
  obtain ⟨o, _, rfl⟩ := List.mem_map.1 h
  exact ⟨o, rfl⟩

/-! ### Initialisation -/

/-- The objects whose initialisers returned, last one first. -/
def finished : List Ev → List Nat
  | [] => []
  | .fin o :: l => finished l ++ [o]
  | _ :: l => finished l

theorem finished_append (l m : List Ev) : finished (l ++ m) = finished m ++ finished l := by
  induction l with
  | nil => simp [finished]
  | cons e l ih => cases e <;> simp [finished, ih]

theorem mem_finished {l : List Ev} {o : Nat} : o ∈ finished l ↔ .fin o ∈ l := by
  induction l with
  | nil => simp [finished]
  | cons e l ih => cases e <;> simp [finished, ih, or_comm]

theorem finished_reloc (l : List Nat) : finished (l.map Ev.reloc) = [] := by
  induction l with
  | nil => rfl
  | cons e l ih => simpa [finished] using ih

/-- What holds of the dynamic linker whenever no request is being linked or scheduled. -/
structure Inv (deps : Nat → List Nat) (V : List Nat) (st : St) : Prop where
  stack : st.onStack = []
  inV : ∀ o ∈ st.sched, o ∈ V
  closed : ∀ o ∈ st.sched, ∀ d ∈ deps o, d ∈ st.sched
  linked : ∀ o ∈ st.sched, o ∈ st.linked
  loaded : ∀ o, o ∈ st.loaded ↔ o ∈ st.linked
  started : ∀ o, .start o ∈ st.log → o ∈ st.sched
  once : ∀ o, st.log.count (.start o) ≤ 1
  fin : ∀ o, .fin o ∈ st.log → .start o ∈ st.log
  finOnce : ∀ o, st.log.count (.fin o) ≤ 1
  finAfter : ∀ o, .fin o ∈ st.log → EvBefore (.start o) (.fin o) st.log
  inited : st.inited = finished st.log
  dq : st.dq = finished st.log
  noDestr : st.destroyed = [] ∧ ∀ o, .destr o ∉ st.log
  reloc : ∀ o, (o ∈ st.linked ↔ .reloc o ∈ st.log) ∧ st.log.count (.reloc o) ≤ 2 ∧
    (st.log.count (.reloc o) = 2 → ∃ x, Reach deps o x ∧ o ∈ deps x)
  relocFirst : ∀ o, .start o ∈ st.log → ∀ d, Reach deps o d →
    EvBefore (.reloc d) (.start o) st.log

/-- A completed request leads from `st` to `st'`. -/
structure Ext (deps opens : Nat → List Nat) (roots : List Nat) (st st' : St) : Prop where
  log : ∃ m, st'.log = st.log ++ m
  sched : ∀ o ∈ st.sched, o ∈ st'.sched
  started : ∀ o, .start o ∈ st'.log → .start o ∈ st.log ∨ o ∉ st.sched
  fin : ∀ o, .fin o ∈ st'.log → .fin o ∈ st.log ∨ o ∉ st.sched
  finished : ∀ o ∈ st'.sched, o ∈ st.sched ∨ .fin o ∈ st'.log
  needed : ∀ o ∈ st'.sched, o ∈ st.sched ∨ Needed deps opens roots o
  opened : ∀ o ∈ st'.sched, o ∈ st.sched ∨ ∀ r ∈ opens o, r ∈ st'.sched

theorem Ext.refl {deps opens : Nat → List Nat} {roots : List Nat} (st : St) :
    Ext deps opens roots st st :=
  ⟨⟨[], by simp⟩, fun _ h => h, fun _ h => .inl h, fun _ h => .inl h, fun _ h => .inl h,
    fun _ h => .inl h, fun _ h => .inl h⟩

theorem Ext.trans {deps opens : Nat → List Nat} {roots : List Nat} {s t u : St}
    (h : Ext deps opens roots s t) (h' : Ext deps opens roots t u) : Ext deps opens roots s u := by
  obtain ⟨m, em⟩ := h.log
  obtain ⟨m', em'⟩ := h'.log
  refine ⟨⟨m ++ m', by rw [em', em, List.append_assoc]⟩, fun o ho => h'.sched o (h.sched o ho),
    ?_, ?_, ?_, ?_, ?_⟩
  · intro o ho
    rcases h'.started o ho with ho | ho
    · exact h.started o ho
    · exact .inr fun hs => ho (h.sched o hs)
  · intro o ho
    rcases h'.fin o ho with ho | ho
    · exact h.fin o ho
    · exact .inr fun hs => ho (h.sched o hs)
  · intro o ho
    rcases h'.finished o ho with ho | ho
    · rcases h.finished o ho with ho | ho
      · exact .inl ho
      · exact .inr (by rw [em']; simp [ho])
    · exact .inr ho
  · intro o ho
    rcases h'.needed o ho with ho | ho
    · exact h.needed o ho
    · exact .inr ho
  · intro o ho
    rcases h'.opened o ho with ho | ho
    · rcases h.opened o ho with ho | ho
      · exact .inl ho
      · exact .inr fun r hr => h'.sched r (ho r hr)
    · exact .inr ho

theorem Needed.mono {deps opens : Nat → List Nat} {roots roots' : List Nat}
    (h : ∀ r ∈ roots, Needed deps opens roots' r) {o : Nat} (ho : Needed deps opens roots o) :
    Needed deps opens roots' o := by
  induction ho with
  | root hr => exact h _ hr
  | dep _ hd ih => exact .dep ih hd
  | opened _ hd ih => exact .opened ih hd

theorem Ext.mono {deps opens : Nat → List Nat} {roots roots' : List Nat} {s t : St}
    (h : Ext deps opens roots s t) (hr : ∀ r ∈ roots, Needed deps opens roots' r) :
    Ext deps opens roots' s t :=
  ⟨h.log, h.sched, h.started, h.fin, h.finished, fun o ho => (h.needed o ho).imp_right (·.mono hr),
    h.opened⟩

/-- What a request promises when `left` objects are not scheduled yet. -/
def Opens (deps opens : Nat → List Nat) (V : List Nat) (n : Nat) (f : Nat → St → Res St) : Prop :=
  ∀ r st, r ∈ V → Inv deps V st → left V st.sched < n →
    ∃ st', f r st = .ok st' ∧ Inv deps V st' ∧ Ext deps opens [r] st st' ∧ r ∈ st'.sched ∧
      ∀ u, Reach deps r u → u ∉ st.sched → ∀ d ∈ deps u,
        DoneBefore d u st'.log ∨ Reach deps d u ∨ (d ∈ st.sched ∧ .fin d ∉ st.log)

theorem openLoop_spec {deps opens : Nat → List Nat} {V : List Nat} {n : Nat} {f : Nat → St → Res St}
    (hf : Opens deps opens V n f) (rs : List Nat) (hr : ∀ r ∈ rs, r ∈ V) (st : St) (hi : Inv deps V st)
    (hl : left V st.sched < n) :
    ∃ st', loop f rs st = .ok st' ∧ Inv deps V st' ∧ Ext deps opens rs st st' ∧
      ∀ r ∈ rs, r ∈ st'.sched := by
  induction rs generalizing st with
  | nil => exact ⟨st, rfl, hi, .refl st, by simp⟩
  | cons r rs ih =>
    obtain ⟨t, e, ht, hte, hrt, -⟩ := hf r st (hr r (by simp)) hi hl
    obtain ⟨u, e', hu, hue, hru⟩ := ih (fun x hx => hr x (by simp [hx])) t ht
      (Nat.lt_of_le_of_lt (left_mono hte.sched) hl)
    refine ⟨u, by simp only [loop, e, Res.bind]; exact e', hu,
      (hte.mono fun x hx => ?_).trans (hue.mono fun x hx => ?_), ?_⟩
    · exact .root (by simp only [List.mem_singleton] at hx; simp [hx])
    · exact .root (by simp [hx])
    · intro x hx
      rcases List.mem_cons.1 hx with rfl | hx
      · exact hue.sched _ hrt
      · exact hru x hx

/-- The loop over the queue. -/
theorem initLoop_spec {deps opens : Nat → List Nat} {V : List Nat} (hV : Finite deps opens V) {n : Nat}
    {f : Nat → St → Res St} (hf : Opens deps opens V n f) (q : List Nat) (st : St)
    (hi : Inv deps V st) (hq : q.Nodup) (hqs : ∀ o ∈ q, o ∈ st.sched ∧ .start o ∉ st.log)
    (hl : q ≠ [] → left V st.sched < n) :
    ∃ st', loop (initOne opens f) q st = .ok st' ∧ Inv deps V st' ∧
      (∃ m, st'.log = st.log ++ m) ∧ (∀ o ∈ st.sched, o ∈ st'.sched) ∧
      (∀ o, .start o ∈ st'.log → .start o ∈ st.log ∨ o ∈ q ∨ o ∉ st.sched) ∧
      (∀ o, .fin o ∈ st'.log → .fin o ∈ st.log ∨ o ∈ q ∨ o ∉ st.sched) ∧
      (∀ o ∈ st'.sched, o ∈ st.sched ∨ .fin o ∈ st'.log) ∧
      (∀ o ∈ q, .fin o ∈ st'.log ∧ ∀ r ∈ opens o, r ∈ st'.sched) ∧
      (∀ o ∈ st'.sched, o ∈ st.sched ∨ Needed deps opens q o) ∧
      (∀ o ∈ st'.sched, o ∈ st.sched ∨ ∀ r ∈ opens o, r ∈ st'.sched) ∧
      (∀ u ∈ q, ∀ d, .fin d ∈ st.log → DoneBefore d u st'.log) ∧
      (∀ d u, Before d u q → DoneBefore d u st'.log) := by
  induction q generalizing st with
  | nil =>
    refine ⟨st, rfl, hi, ⟨[], by simp⟩, fun _ h => h, fun _ h => .inl h, fun _ h => .inl h,
      fun _ h => .inl h, by simp, fun _ h => .inl h, fun _ h => .inl h, by simp, ?_⟩
    rintro d u ⟨a, b, e, -⟩
    simp at e
  | cons o q ih =>
    obtain ⟨hos, hon⟩ := hqs o (by simp)
    obtain ⟨hoq, hqn⟩ := List.nodup_cons.1 hq
    have hofin : Ev.fin o ∉ st.log := fun h => hon (hi.fin o h)
    have hoin : o ∉ st.inited := by rw [hi.inited, mem_finished]; exact hofin
    have hlink : o ∈ st.linked := hi.linked o hos
    have hre : ∀ d, Reach deps o d → .reloc d ∈ st.log := fun d hd =>
      ((hi.reloc d).1).1 (hi.linked d (hd.closed (S := (· ∈ st.sched)) hi.closed hos))
    -- the state in which the initialisers run
    have hi1 : Inv deps V { st with log := st.log ++ [.start o] } := by
      refine ⟨hi.stack, hi.inV, hi.closed, hi.linked, hi.loaded, ?_, ?_, ?_, ?_, ?_, ?_, ?_, ?_, ?_, ?_⟩
      · intro x hx
        simp only [List.mem_append, List.mem_singleton, Ev.start.injEq] at hx
        rcases hx with hx | rfl
        · exact hi.started x hx
        · exact hos
      · intro x
        simp only [List.count_append, List.count_singleton]
        by_cases hxo : x = o
        · subst hxo
          have := List.count_eq_zero.2 hon
          simp [this]
        · have := hi.once x
          have : (Ev.start o == Ev.start x) = false := by simpa using fun h => hxo h.symm
          simp [this, hi.once x]
      · intro x hx
        simp only [List.mem_append, List.mem_singleton] at hx ⊢
        rcases hx with hx | hx
        · exact .inl (hi.fin x hx)
        · cases hx
      · intro x
        simpa [List.count_append, List.count_singleton] using hi.finOnce x
      · intro x hx
        exact (hi.finAfter x (by simpa using hx)).append _
      · show st.inited = _
        rw [finished_append, hi.inited]; rfl
      · show st.dq = _
        rw [finished_append, hi.dq]; rfl
      · refine ⟨hi.noDestr.1, fun x => ?_⟩
        simpa using hi.noDestr.2 x
      · intro x
        simpa [List.count_append, List.count_singleton] using hi.reloc x
      · intro x hx d hd
        simp only [List.mem_append, List.mem_singleton, Ev.start.injEq] at hx
        rcases hx with hx | rfl
        · exact (hi.relocFirst x hx d hd).append _
        · exact ⟨st.log, [], by simp, hre d hd⟩
    obtain ⟨t, et, hit, hte, hopn⟩ := openLoop_spec hf (opens o) (hV.opens o (hi.inV o hos)) _ hi1
      (hl (by simp))
    obtain ⟨m, em⟩ := hte.log
    have hstart : Ev.start o ∈ t.log := by rw [em]; simp
    have hnofin : Ev.fin o ∉ t.log := by
      intro h
      rcases hte.fin o h with h | h
      · simp only [List.mem_append, List.mem_singleton] at h
        rcases h with h | h
        · exact hofin h
        · cases h
      · exact h hos
    have hi2 : Inv deps V { t with
        log := t.log ++ [.fin o], inited := o :: t.inited, dq := o :: t.dq } := by
      refine ⟨hit.stack, hit.inV, hit.closed, hit.linked, hit.loaded, ?_, ?_, ?_, ?_, ?_, ?_, ?_, ?_,
        ?_, ?_⟩
      · intro x hx
        exact hit.started x (by simpa using hx)
      · intro x
        simpa [List.count_append, List.count_singleton] using hit.once x
      · intro x hx
        simp only [List.mem_append, List.mem_singleton, Ev.fin.injEq] at hx ⊢
        rcases hx with hx | rfl
        · exact .inl (hit.fin x hx)
        · exact .inl hstart
      · intro x
        simp only [List.count_append, List.count_singleton]
        by_cases hxo : x = o
        · subst hxo
          have := List.count_eq_zero.2 hnofin
          simp [this]
        · have : (Ev.fin o == Ev.fin x) = false := by simpa using fun h => hxo h.symm
          simp [this, hit.finOnce x]
      · intro x hx
        simp only [List.mem_append, List.mem_singleton, Ev.fin.injEq] at hx
        rcases hx with hx | rfl
        · exact (hit.finAfter x hx).append _
        · exact ⟨t.log, [], by simp, hstart⟩
      · show o :: t.inited = _
        rw [finished_append, hit.inited]; rfl
      · show o :: t.dq = _
        rw [finished_append, hit.dq]; rfl
      · refine ⟨hit.noDestr.1, fun x => ?_⟩
        simpa using hit.noDestr.2 x
      · intro x
        simpa [List.count_append, List.count_singleton] using hit.reloc x
      · intro x hx d hd
        exact (hit.relocFirst x (by simpa using hx) d hd).append _
    obtain ⟨st', e', hi', ⟨m', em'⟩, h2, h3, h4, h5, h6, h7, h8, h9, h10⟩ := ih
      { t with log := t.log ++ [.fin o], inited := o :: t.inited, dq := o :: t.dq } hi2 hqn
      (by
        intro x hx
        have hx' := hqs x (by simp [hx])
        refine ⟨hte.sched x hx'.1, fun h => ?_⟩
        have hne : x ≠ o := by rintro rfl; exact hoq hx
        rcases hte.started x (by simpa using h) with h | h
        · simp only [List.mem_append, List.mem_singleton, Ev.start.injEq] at h
          rcases h with h | h
          · exact hx'.2 h
          · exact hne h
        · exact h hx'.1)
      (fun _ => Nat.lt_of_le_of_lt (left_mono hte.sched) (hl (by simp)))
    have elog : st'.log = st.log ++ (.start o :: (m ++ .fin o :: m')) := by
      rw [em']; simp only [em]; simp
    have hopen1 : ∀ r ∈ opens o, Needed deps opens (o :: q) r := fun r hr =>
      .opened (.root (by simp)) hr
    refine ⟨st', ?_, hi', ⟨_, elog⟩, fun x hx => h2 x (hte.sched x hx), ?_, ?_, ?_, ?_, ?_, ?_, ?_, ?_⟩
    · simp only [loop, initOne, if_neg hoin, hlink, decide_true, ensure_true, Res.bind, et]
      exact e'
    · intro x hx
      rcases h3 x hx with h | h | h
      · rcases hte.started x (by simpa using h) with h | h
        · simp only [List.mem_append, List.mem_singleton, Ev.start.injEq] at h
          rcases h with h | rfl
          · exact .inl h
          · exact .inr (.inl (by simp))
        · exact .inr (.inr h)
      · exact .inr (.inl (by simp [h]))
      · exact .inr (.inr fun hs => h (hte.sched x hs))
    · intro x hx
      rcases h4 x hx with h | h | h
      · simp only [List.mem_append, List.mem_singleton, Ev.fin.injEq] at h
        rcases h with h | rfl
        · rcases hte.fin x h with h | h
          · exact .inl (by simpa using h)
          · exact .inr (.inr h)
        · exact .inr (.inl (by simp))
      · exact .inr (.inl (by simp [h]))
      · exact .inr (.inr fun hs => h (hte.sched x hs))
    · intro x hx
      rcases h5 x hx with h | h
      · rcases hte.finished x h with h | h
        · exact .inl h
        · refine .inr ?_
          rw [em']; simp [h]
      · exact .inr h
    · intro x hx
      rcases List.mem_cons.1 hx with rfl | hx
      · exact ⟨by rw [elog]; simp, fun r hr => h2 r (hopn r hr)⟩
      · exact h6 x hx
    · intro x hx
      rcases h7 x hx with h | h
      · rcases hte.needed x h with h | h
        · exact .inl h
        · exact .inr (h.mono hopen1)
      · exact .inr (h.mono fun r hr => .root (by simp [hr]))
    · intro x hx
      rcases h8 x hx with h | h
      · rcases hte.opened x h with h | h
        · exact .inl h
        · exact .inr fun r hr => h2 r (h r hr)
      · exact .inr h
    · intro u hu d hd
      rcases List.mem_cons.1 hu with rfl | hu
      · exact ⟨st.log, _, elog, hd⟩
      · exact h9 u hu d (by simp only [em]; simp [hd])
    · rintro d u ⟨a, b, eq, hda⟩
      cases a with
      | nil => simp at hda
      | cons x a =>
        simp only [List.cons_append, List.cons.injEq] at eq
        obtain ⟨rfl, rfl⟩ := eq
        rcases List.mem_cons.1 hda with rfl | hda
        · exact h9 u (by simp) d (by simp)
        · exact h10 d u ⟨a, b, rfl, hda⟩

theorem reach_needed {deps opens : Nat → List Nat} {r o : Nat} (h : Reach deps r o) :
    Needed deps opens [r] o := by
  induction h with
  | refl => exact .root (by simp)
  | step _ hd ih => exact .dep ih hd

theorem openObj_spec {deps opens : Nat → List Nat} {V : List Nat} (hV : Finite deps opens V) {lim : Nat}
    (hlim : V.length + 1 ≤ lim) (n : Nat) : Opens deps opens V n (openObj deps opens lim n) := by
  induction n with
  | zero => intro r st _ _ h; omega
  | succ n ih =>
    intro r st hr hi hl
    obtain ⟨bfs, eb, ⟨t, ebt, htn, htr⟩, hbm⟩ := buildLinkBfs_spec hV.deps hr lim hlim
    have hbV : ∀ d ∈ bfs, d ∈ V := fun d hd =>
      ((hbm d).1 hd).closed (S := (· ∈ V)) hV.deps hr
    obtain ⟨s, es, hs, hse, hsb⟩ := scheduleAll_spec (old := st.sched) hV.deps lim (by omega) bfs hbV
    have hst : s.onStack = [] := hse.stack
    have hmem : ∀ x, x ∈ s.sched ↔ x ∈ st.sched ∨ x ∈ s.queue := by
      intro x
      rw [hs.mem x, hst]; simp
    have hqr : ∀ x ∈ s.queue, Reach deps r x := by
      intro x hx
      rcases hse.reach x ((hmem x).2 (.inr hx)) with h | ⟨y, hy, h⟩
      · exact absurd h (hs.disj x hx).1
      · exact ((hbm y).1 hy).trans h
    have hi1 : Inv deps V { st with
        loaded := bfs ++ st.loaded, linked := bfs ++ st.linked,
        log := st.log ++ (bfs.filter (· ∉ st.loaded)).map Ev.reloc,
        sched := s.sched, onStack := s.onStack } := by
      refine ⟨hst, ?_, ?_, ?_, ?_, ?_, ?_, ?_, ?_, ?_, ?_, ?_, ?_, ?_, ?_⟩
      · intro x hx
        rcases (hmem x).1 hx with h | h
        · exact hi.inV x h
        · exact (hqr x h).closed (S := (· ∈ V)) hV.deps hr
      · intro x hx d hd
        rcases (hmem x).1 hx with h | h
        · exact (hmem d).2 (.inl (hi.closed x h d hd))
        · rcases hse.closed x h with h | h
          · simp at h
          · exact h d hd
      · intro x hx
        simp only [List.mem_append]
        rcases (hmem x).1 hx with h | h
        · exact .inr (hi.linked x h)
        · exact .inl ((hbm x).2 (hqr x h))
      · intro x
        simp only [List.mem_append, hi.loaded x]
      · intro x hx
        simp only [List.mem_append] at hx
        rcases hx with hx | hx
        · exact (hmem x).2 (.inl (hi.started x hx))
        · obtain ⟨_, h⟩ := mem_map_reloc hx
          cases h
      · intro x
        rw [List.count_append, List.count_eq_zero (l := List.map _ _) |>.2]
        · exact hi.once x
        · intro hx; obtain ⟨_, h⟩ := mem_map_reloc hx; cases h
      · intro x hx
        simp only [List.mem_append] at hx ⊢
        rcases hx with hx | hx
        · exact .inl (hi.fin x hx)
        · obtain ⟨_, h⟩ := mem_map_reloc hx
          cases h
      · intro x
        rw [List.count_append, List.count_eq_zero (l := List.map _ _) |>.2]
        · exact hi.finOnce x
        · intro hx; obtain ⟨_, h⟩ := mem_map_reloc hx; cases h
      · intro x hx
        simp only [List.mem_append] at hx
        rcases hx with hx | hx
        · exact (hi.finAfter x hx).append _
        · obtain ⟨_, h⟩ := mem_map_reloc hx
          cases h
      · show st.inited = _
        rw [finished_append, finished_reloc, hi.inited]; rfl
      · show st.dq = _
        rw [finished_append, finished_reloc, hi.dq]; rfl
      · refine ⟨hi.noDestr.1, fun x => ?_⟩
        simp only [List.mem_append, not_or]
        refine ⟨hi.noDestr.2 x, fun hx => ?_⟩
        obtain ⟨_, h⟩ := mem_map_reloc hx
        cases h
      · intro x
        obtain ⟨h1, h2, h3⟩ := hi.reloc x
        by_cases hxl : x ∈ st.loaded
        · have hx0 : x ∉ bfs.filter (· ∉ st.loaded) := by simp [hxl]
          have hc : ((bfs.filter (· ∉ st.loaded)).map Ev.reloc).count (.reloc x) = 0 := by
            rw [count_reloc]; exact List.count_eq_zero.2 hx0
          have hxk := (hi.loaded x).1 hxl
          refine ⟨?_, ?_, ?_⟩
          · simp only [List.mem_append]
            exact ⟨fun _ => .inl (h1.1 hxk), fun _ => .inr hxk⟩
          · rw [List.count_append, hc]; exact h2
          · rw [List.count_append, hc]; exact h3
        · have hxk : x ∉ st.linked := fun h => hxl ((hi.loaded x).2 h)
          have hx0 : Ev.reloc x ∉ st.log := fun h => hxk (h1.2 h)
          have hc0 := List.count_eq_zero.2 hx0
          have hc : ((bfs.filter (· ∉ st.loaded)).map Ev.reloc).count (.reloc x) = bfs.count x := by
            rw [count_reloc, List.count_filter]
            simpa using hxl
          have htc : t.count x ≤ 1 := List.nodup_iff_count.1 htn x
          refine ⟨?_, ?_, ?_⟩
          · simp only [List.mem_append]
            constructor
            · rintro (h | h)
              · right
                apply List.mem_map_of_mem
                simp [h, hxl]
              · exact absurd h hxk
            · rintro (h | h)
              · exact absurd h hx0
              · obtain ⟨y, hy, e⟩ := List.mem_map.1 h
                cases e
                exact .inl (List.mem_filter.1 hy).1
          · rw [List.count_append, hc, hc0, ebt, List.count_cons]
            split <;> omega
          · rw [List.count_append, hc, hc0, ebt, List.count_cons]
            intro h2'
            split at h2'
            · rename_i hrx
              have hrx : r = x := by simpa using hrx
              subst hrx
              refine htr.1 ?_
              exact List.count_pos_iff.1 (by omega)
            · omega
      · intro x hx d hd
        simp only [List.mem_append] at hx
        rcases hx with hx | hx
        · exact (hi.relocFirst x hx d hd).append _
        · obtain ⟨_, h⟩ := mem_map_reloc hx
          cases h
    have hnew : ∀ o ∈ s.queue, o ∈ s.sched ∧
        Ev.start o ∉ st.log ++ (bfs.filter (· ∉ st.loaded)).map Ev.reloc := by
      intro o ho
      refine ⟨(hmem o).2 (.inr ho), fun hx => ?_⟩
      rcases List.mem_append.1 hx with hx | hx
      · exact (hs.disj o ho).1 (hi.started o hx)
      · obtain ⟨_, h⟩ := mem_map_reloc hx
        cases h
    obtain ⟨st', e', hi', ⟨m', em'⟩, h2, h3, h4, h5, h6, h7, h8, h9, h10⟩ := initLoop_spec hV ih
      s.queue _ hi1 hs.nodup hnew (by
        intro hne
        obtain ⟨o, ho⟩ := List.exists_mem_of_ne_nil _ hne
        have := left_lt (V := V) (S := st.sched) (T := s.sched) (fun x hx => (hmem x).2 (.inl hx))
          (hi1.inV o ((hmem o).2 (.inr ho))) (hs.disj o ho).1 ((hmem o).2 (.inr ho))
        show left V s.sched < n
        omega)
    have hlogmem : ∀ e : Ev, (∀ o, e ≠ .reloc o) →
        e ∈ st.log ++ (bfs.filter (· ∉ st.loaded)).map Ev.reloc → e ∈ st.log := by
      intro e hne he
      rcases List.mem_append.1 he with he | he
      · exact he
      · obtain ⟨o, h⟩ := mem_map_reloc he
        exact absurd h (hne o)
    refine ⟨st', ?_, hi', ⟨⟨(bfs.filter (· ∉ st.loaded)).map Ev.reloc ++ m', by
      rw [em', List.append_assoc]⟩, ?_, ?_, ?_, ?_, ?_, ?_⟩, ?_, ?_⟩
    · simp only [openObj, eb, Res.bind, linkObjects_spec bfs st hi.loaded, hi.stack, es]
      exact e'
    · exact fun o ho => h2 o ((hmem o).2 (.inl ho))
    · intro o ho
      rcases h3 o ho with h | h | h
      · exact .inl (hlogmem _ (by simp) h)
      · exact .inr (hs.disj o h).1
      · exact .inr fun hs' => h ((hmem o).2 (.inl hs'))
    · intro o ho
      rcases h4 o ho with h | h | h
      · exact .inl (hlogmem _ (by simp) h)
      · exact .inr (hs.disj o h).1
      · exact .inr fun hs' => h ((hmem o).2 (.inl hs'))
    · intro o ho
      rcases h5 o ho with h | h
      · rcases (hmem o).1 h with h | h
        · exact .inl h
        · exact .inr (h6 o h).1
      · exact .inr h
    · intro o ho
      rcases h7 o ho with h | h
      · rcases (hmem o).1 h with h | h
        · exact .inl h
        · exact .inr (reach_needed (hqr o h))
      · exact .inr (h.mono fun x hx => reach_needed (hqr x hx))
    · intro o ho
      rcases h8 o ho with h | h
      · rcases (hmem o).1 h with h | h
        · exact .inl h
        · exact .inr (h6 o h).2
      · exact .inr h
    · exact h2 r (hsb r ((hbm r).2 (.refl r)))
    · intro u hu hus d hd
      have huq : u ∈ s.queue := by
        rcases (hmem u).1 (hsb u ((hbm u).2 hu)) with h | h
        · exact absurd h hus
        · exact h
      rcases hs.order u huq d hd with h | h | h
      · by_cases hf : Ev.fin d ∈ st.log
        · exact .inl (h9 u huq d (by simp [hf]))
        · exact .inr (.inr ⟨h, hf⟩)
      · exact .inl (h10 d u h)
      · exact .inr (.inl h)

/-! ### A whole run -/

theorem Inv.init (deps : Nat → List Nat) (V : List Nat) : Inv deps V St.init := by
  refine ⟨rfl, ?_, ?_, ?_, ?_, ?_, ?_, ?_, ?_, ?_, rfl, rfl, ?_, ?_, ?_⟩ <;> simp [St.init]

/-- Everything scheduled has been initialised: true between requests from outside initialisers. -/
def Idle (st : St) : Prop := ∀ o ∈ st.sched, .fin o ∈ st.log

theorem openAll_spec {deps opens : Nat → List Nat} {V : List Nat} (hV : Finite deps opens V) {lim : Nat}
    (hlim : V.length < lim) (roots : List Nat) (hr : ∀ r ∈ roots, r ∈ V) :
    ∃ st, openAll deps opens lim roots = .ok st ∧ Inv deps V st ∧ Idle st ∧
      (∀ o, o ∈ st.sched ↔ Needed deps opens roots o) := by
  have hl : left V St.init.sched < lim :=
    Nat.lt_of_le_of_lt (List.length_filter_le _ _) hlim
  obtain ⟨st, e, hi, hx, hs⟩ := openLoop_spec (openObj_spec hV hlim lim) roots hr St.init
    (Inv.init deps V) hl
  have h0 : ∀ o, o ∉ St.init.sched := by simp [St.init]
  refine ⟨st, e, hi, fun o ho => (hx.finished o ho).resolve_left (h0 o), fun o => ⟨fun ho =>
    (hx.needed o ho).resolve_left (h0 o), fun ho => ?_⟩⟩
  induction ho with
  | root h => exact hs _ h
  | dep _ hd ih => exact hi.closed _ ih _ hd
  | opened _ hd ih => exact (hx.opened _ ih).resolve_left (h0 _) _ hd

/-- Finitely many objects, all requests about them, and more room on the stack than there are objects. -/
structure Setting (deps opens : Nat → List Nat) (roots : List Nat) (lim : Nat) : Prop where
  fin : ∃ V, Finite deps opens V ∧ V.length < lim ∧ ∀ r ∈ roots, r ∈ V

/-- The example used below: 0 needs 1 and 2, both need 3; 3 and 4 need each other; the initialisers of 2
open 5, which needs 4. -/
def exDeps : Nat → List Nat
  | 0 => [1, 2]
  | 1 => [3]
  | 2 => [3]
  | 3 => [4]
  | 4 => [3]
  | 5 => [4]
  | _ => []

def exOpens : Nat → List Nat
  | 2 => [5]
  | _ => []

theorem exSetting : Setting exDeps exOpens [0, 4, 5] 7 :=
  ⟨[0, 1, 2, 3, 4, 5], ⟨by decide, by decide⟩, by decide, by decide⟩

/-- C62: whatever is opened, by the program or by initialisers, completes, and the initialisers of
exactly the objects needed run, each once. -/
theorem init_exactly_once {deps opens : Nat → List Nat} {roots : List Nat} {lim : Nat}
    (h : Setting deps opens roots lim) :
    ∃ st, openAll deps opens lim roots = .ok st ∧
      ∀ o, (Needed deps opens roots o →
          st.log.count (.start o) = 1 ∧ st.log.count (.fin o) = 1 ∧
          EvBefore (.start o) (.fin o) st.log) ∧
        (¬ Needed deps opens roots o → .start o ∉ st.log) := by
  obtain ⟨V, hV, hl, hr⟩ := h.fin
  obtain ⟨st, e, hi, hid, hn⟩ := openAll_spec hV hl roots hr
  refine ⟨st, e, fun o => ⟨fun ho => ?_, fun ho h => ho ((hn o).1 (hi.started o h))⟩⟩
  have hf := hid o ((hn o).2 ho)
  have h1 := List.count_pos_iff.2 hf
  have h2 := List.count_pos_iff.2 (hi.fin o hf)
  have h3 := hi.once o
  have h4 := hi.finOnce o
  exact ⟨by omega, by omega, hi.finAfter o hf⟩

example : Setting exDeps exOpens [0, 4, 5] 7 ∧ Needed exDeps exOpens [0, 4, 5] 3 :=
  ⟨exSetting, .dep (x := 4) (.root (by decide)) (by decide)⟩

/-- C62: an object that a request of the program brings in through dependencies is initialised after
each of its dependencies, unless that dependency depends on it in turn. (Objects brought in only by
initialisers that call dlopen are excluded, see `nested_violated`.) -/
theorem init_after_deps_partial {deps opens : Nat → List Nat} {before after : List Nat} {r lim : Nat}
    (h : Setting deps opens (before ++ r :: after) lim) :
    ∃ st, openAll deps opens lim (before ++ r :: after) = .ok st ∧
      ∀ u, Reach deps r u → ¬ Needed deps opens before u → ∀ d ∈ deps u,
        DoneBefore d u st.log ∨ Reach deps d u := by
  obtain ⟨V, hV, hl, hr⟩ := h.fin
  obtain ⟨s, e, hi, hid, hn⟩ := openAll_spec hV hl before (fun x hx => hr x (by simp [hx]))
  have hlen : ∀ S, left V S < lim := fun S => Nat.lt_of_le_of_lt (List.length_filter_le _ _) hl
  obtain ⟨t, e', hi', -, -, ho⟩ := openObj_spec hV hl lim r s (hr r (by simp)) hi (hlen _)
  obtain ⟨st, e'', -, hx, -⟩ := openLoop_spec (openObj_spec hV hl lim) after
    (fun x hx => hr x (by simp [hx])) t hi' (hlen _)
  refine ⟨st, ?_, ?_⟩
  · unfold openAll at e ⊢
    rw [loop_append, e]
    simp only [Res.bind]
    rw [loop_cons, e']
    exact e''
  · intro u hu hnu d hd
    obtain ⟨m, em⟩ := hx.log
    rcases ho u hu (fun hs => hnu ((hn u).1 hs)) d hd with h | h | h
    · exact .inl (by rw [em]; exact EvBefore.append h m)
    · exact .inr h
    · exact absurd (hid d h.1) h.2

example : ∃ u d, Reach exDeps 0 u ∧ ¬ Needed exDeps exOpens [] u ∧ d ∈ exDeps u ∧ ¬ Reach exDeps d u := by
  refine ⟨1, 3, .step (.refl _) (by decide), ?_, by decide, ?_⟩
  · intro h
    have : ∀ o, ¬ Needed exDeps exOpens [] o := by
      intro o ho
      induction ho with
      | root h => simp at h
      | dep _ _ ih => exact ih
      | opened _ _ ih => exact ih
    exact this _ h
  · intro h
    have := h.closed (S := fun x => x = 3 ∨ x = 4) (by
      rintro x (rfl | rfl) y hy
      · exact .inr (by simpa [exDeps] using hy)
      · exact .inl (by simpa [exDeps] using hy)) (.inl rfl)
    omega

/-- Position of an event that occurs once. -/
theorem once_unique {e : Ev} {l a b a' b' : List Ev} (hc : l.count e ≤ 1) (h : l = a ++ e :: b)
    (h' : l = a' ++ e :: b') : a = a' := by
  subst h
  have h0 : e ∉ a ∧ e ∉ b := by
    simp only [List.count_append, List.count_cons_self] at hc
    exact ⟨List.count_eq_zero.1 (by omega), List.count_eq_zero.1 (by omega)⟩
  have h1 : e ∉ a' := by
    rw [h'] at hc
    simp only [List.count_append, List.count_cons_self] at hc
    exact List.count_eq_zero.1 (by omega)
  clear hc
  induction a generalizing a' with
  | nil =>
    cases a' with
    | nil => rfl
    | cons x a' => simp at h'; simp [h'.1] at h1
  | cons y a ih =>
    cases a' with
    | nil => simp at h'; simp [h'.1] at h0
    | cons x a' =>
      simp only [List.cons_append, List.cons.injEq] at h'
      simp only [List.mem_cons, not_or] at h0 h1
      rw [h'.1, ih h'.2 ⟨h0.1.2, h0.2⟩ h1.2]

/-- `e` before `f` before `g`. -/
theorem EvBefore.trans {e f g : Ev} {l : List Ev} (hf : l.count f ≤ 1) (h : EvBefore e f l)
    (h' : EvBefore f g l) : EvBefore e g l := by
  obtain ⟨a, b, e1, h1⟩ := h
  obtain ⟨a', b', e2, h2⟩ := h'
  obtain ⟨c, d, e3⟩ := List.append_of_mem h2
  have : a = c := once_unique hf e1 (b' := d ++ g :: b') (by rw [e2, e3]; simp)
  exact ⟨a', b', e2, by rw [e3, ← this]; simp [h1]⟩

/-- C62: when no initialiser calls dlopen and no object depends on itself, every object is initialised
after everything it depends on, directly or indirectly. -/
theorem init_after_all_deps_partial {deps : Nat → List Nat} {roots : List Nat} {lim : Nat}
    (h : Setting deps (fun _ => []) roots lim)
    (hac : ∀ x y, Reach deps x y → ∀ z ∈ deps y, ¬ Reach deps z x) :
    ∃ st, openAll deps (fun _ => []) lim roots = .ok st ∧
      ∀ u, Needed deps (fun _ => []) roots u → ∀ d, Reach deps u d → d ≠ u →
        DoneBefore d u st.log := by
  obtain ⟨V, hV, hl, hr⟩ := h.fin
  obtain ⟨st, e, hi, hid, hn⟩ := openAll_spec hV hl roots hr
  refine ⟨st, e, ?_⟩
  -- direct dependencies
  have direct : ∀ u, Needed deps (fun _ => []) roots u → ∀ d ∈ deps u, DoneBefore d u st.log := by
    intro u hu d hd
    -- the first request that needs `u`
    have first : ∀ rs, Needed deps (fun _ => []) rs u → ∃ b r a, rs = b ++ r :: a ∧ Reach deps r u ∧
        ¬ Needed deps (fun _ => []) b u := by
      intro rs
      generalize hlen : rs.length = n
      induction n generalizing rs with
      | zero =>
        obtain rfl := List.length_eq_zero_iff.1 hlen
        intro h
        have : ∀ o, ¬ Needed deps (fun _ => []) [] o := by
          intro o ho
          induction ho with
          | root h => simp at h
          | dep _ _ ih => exact ih
          | opened _ _ ih => exact ih
        exact absurd h (this u)
      | succ n ih =>
        rcases List.eq_nil_or_concat rs with rfl | ⟨rs, r, rfl⟩
        · simp at hlen
        intro h
        by_cases hb : Needed deps (fun _ => []) rs u
        · obtain ⟨b, r', a, e, h1, h2⟩ := ih rs (by simpa using hlen) hb
          exact ⟨b, r', a ++ [r], by simp [e], h1, h2⟩
        · rw [List.concat_eq_append] at h
          refine ⟨rs, r, [], by simp, ?_, hb⟩
          have : ∀ o, Needed deps (fun _ => []) (rs ++ [r]) o →
              Needed deps (fun _ => []) rs o ∨ Reach deps r o := by
            intro o ho
            induction ho with
            | root h =>
              simp only [List.mem_append, List.mem_singleton] at h
              rcases h with h | rfl
              · exact .inl (.root h)
              · exact .inr (.refl _)
            | dep _ hd ih => exact ih.imp (·.dep hd) (·.step hd)
            | opened _ hd _ => simp at hd
          exact (this u h).resolve_left hb
    obtain ⟨b, r, a, rfl, h1, h2⟩ := first roots hu
    obtain ⟨st', e', h3⟩ := init_after_deps_partial h
    rw [e] at e'
    cases e'
    exact (h3 u h1 h2 d hd).resolve_right (hac u u (.refl u) d hd)
  intro u hu d hd
  induction hd with
  | refl => intro h; exact absurd rfl h
  | @step y z hy hz ih =>
    intro hne
    have hny : Needed deps (fun _ => []) roots y := by
      clear ih hz hne
      induction hy with
      | refl => exact hu
      | step _ hz ih => exact .dep ih hz
    have h1 := direct y hny z hz
    by_cases hyu : y = u
    · exact hyu ▸ h1
    · have h2 := ih hyu
      have h3 := hi.finAfter y (hid y ((hn y).2 hny))
      exact EvBefore.trans (hi.finOnce y) (EvBefore.trans (hi.once y) h1 h3) h2

/-- A graph without cycles meets the hypotheses. -/
example : ∃ deps : Nat → List Nat, Setting deps (fun _ => []) [0] 4 ∧
    (∀ x y, Reach deps x y → ∀ z ∈ deps y, ¬ Reach deps z x) ∧ Reach deps 0 2 := by
  refine ⟨fun o => if o = 0 then [1] else if o = 1 then [2] else [],
    ⟨[0, 1, 2], ⟨by decide, by simp⟩, by decide, by decide⟩, ?_, ?_⟩
  · have mono : ∀ x y, Reach (fun o => if o = 0 then [1] else if o = 1 then [2] else []) x y → x ≤ y := by
      intro x y h
      induction h with
      | refl => exact Nat.le_refl _
      | step _ hz ih =>
        split at hz
        · simp at hz; omega
        · split at hz
          · simp at hz; omega
          · simp at hz
    intro x y hxy z hz hzx
    have h1 := mono _ _ hxy
    have h2 := mono _ _ hzx
    dsimp only at hz
    split at hz
    · simp at hz; omega
    · split at hz
      · simp at hz; omega
      · simp at hz
  · exact .step (.step (.refl 0) (y := 0) (z := 1) (by decide)) (by decide)

/-- C62 does not hold for an object opened by an initialiser: 0 needs 1 and 2, in this order; the
initialisers of 1 open 3, which needs 2. The initialisers of 3 run before those of 2 although 2 does not
depend on anything. -/
theorem nested_violated :
    ∃ st, openAll (fun | 0 => [1, 2] | 3 => [2] | _ => []) (fun | 1 => [3] | _ => []) 9 [0] = .ok st ∧
      st.log.filter (fun e => match e with | .reloc _ => false | _ => true) =
        [.start 1, .start 3, .fin 3, .fin 1, .start 2, .fin 2, .start 0, .fin 0] :=
  ⟨_, rfl, rfl⟩

/-- C62, indirect dependencies: 0 needs 1 and 2, 1 needs 0. The initialisers of 1 run before those of 2,
on which 1 depends through 0, and 2 depends on nothing. -/
theorem indirect_violated :
    ∃ st, openAll (fun | 0 => [1, 2] | 1 => [0] | _ => []) (fun _ => []) 9 [0] = .ok st ∧
      st.log.filter (fun e => match e with | .reloc _ => false | _ => true) =
        [.start 1, .fin 1, .start 2, .fin 2, .start 0, .fin 0] :=
  ⟨_, rfl, rfl⟩

/-! ### Destruction -/

/-- The objects whose initialisers returned, in this order. -/
def inits (l : List Ev) : List Nat := l.filterMap fun | .fin o => some o | _ => none

/-- The objects whose destructors ran, in this order. -/
def destrs (l : List Ev) : List Nat := l.filterMap fun | .destr o => some o | _ => none

theorem finished_eq (l : List Ev) : finished l = (inits l).reverse := by
  induction l with
  | nil => rfl
  | cons e l ih => cases e <;> simp [finished, inits, ih] <;> rfl

theorem destruct_loop (n : Nat) (st : St) (hn : st.dq.length ≤ n) (hnd : st.dq.Nodup)
    (hin : ∀ o ∈ st.dq, o ∈ st.inited ∧ o ∉ st.destroyed) :
    ∃ st', destructObjects (fun _ => []) n st = .ok st' ∧ st'.dq = [] ∧
      destrs st'.log = destrs st.log ++ st.dq := by
  induction n generalizing st with
  | zero =>
    have : st.dq = [] := List.length_eq_zero_iff.1 (by omega)
    rw [destructObjects.eq_def]; simp only [this]
    exact ⟨st, rfl, this, by simp⟩
  | succ n ih =>
    cases hdq : st.dq with
    | nil =>
      rw [destructObjects.eq_def]; simp only [hdq]
      exact ⟨st, rfl, hdq, by simp⟩
    | cons top rest =>
      rw [destructObjects.eq_def]; simp only [hdq]
      have h1 := hin top (by simp [hdq])
      rw [if_pos h1]
      rw [hdq] at hn hnd
      obtain ⟨hnt, hnr⟩ := List.nodup_cons.1 hnd
      obtain ⟨st', e, h2, h3⟩ := ih { st with
        log := st.log ++ [.destr top], destroyed := top :: st.destroyed,
        inited := [] ++ st.inited, dq := rest } (by simpa using hn) hnr (by
          intro o ho
          have := hin o (by simp [hdq, ho])
          refine ⟨by simpa using this.1, ?_⟩
          simp only [List.mem_cons, not_or]
          exact ⟨by rintro rfl; exact hnt ho, this.2⟩)
      refine ⟨st', e, h2, ?_⟩
      rw [h3]
      simp [destrs, List.filterMap_append]

theorem finished_nodup {l : List Ev} (h : ∀ o, l.count (.fin o) ≤ 1) : (finished l).Nodup := by
  rw [List.nodup_iff_count]
  intro o
  refine Nat.le_trans (Nat.le_of_eq ?_) (h o)
  clear h
  induction l with
  | nil => rfl
  | cons e l ih =>
    cases e with
    | fin x =>
      simp only [finished, List.count_append, ih, List.count_cons, List.count_nil]
      by_cases hx : x = o <;> simp [hx]
    | start x => simp [finished, ih]
    | destr x => simp [finished, ih]
    | reloc x => simp [finished, ih]

/-- C62: at exit the destructors of all initialised objects run, each once, in the exact reverse of the
order in which the initialisers returned; calling exit's hook again runs nothing. -/
theorem destructors_reverse_partial {deps opens : Nat → List Nat} {roots : List Nat} {lim : Nat}
    (h : Setting deps opens roots lim) :
    ∃ st, openAll deps opens lim roots = .ok st ∧ destrs st.log = [] ∧
      (∀ o, o ∈ inits st.log ↔ Needed deps opens roots o) ∧
      ∀ n, (inits st.log).length ≤ n → ∃ st', destructObjects (fun _ => []) n st = .ok st' ∧
        destrs st'.log = (inits st.log).reverse ∧
        destructObjects (fun _ => []) 0 st' = .ok st' := by
  obtain ⟨V, hV, hl, hr⟩ := h.fin
  obtain ⟨st, e, hi, hid, hn⟩ := openAll_spec hV hl roots hr
  have hd0 : destrs st.log = [] := by
    rw [destrs, List.filterMap_eq_nil_iff]
    intro ev hev
    cases ev with
    | destr o => exact absurd hev (hi.noDestr.2 o)
    | _ => rfl
  refine ⟨st, e, hd0, fun o => ?_, fun n hnl => ?_⟩
  · rw [← hn, ← List.mem_reverse, ← finished_eq, mem_finished]
    exact ⟨fun h => hi.started o (hi.fin o h), hid o⟩
  · obtain ⟨st', e', h1, h2⟩ := destruct_loop n st
      (by rw [hi.dq, finished_eq, List.length_reverse]; exact hnl)
      (by rw [hi.dq]; exact finished_nodup hi.finOnce)
      (by intro o ho; rw [hi.inited, hi.noDestr.1, ← hi.dq]; exact ⟨ho, by simp⟩)
    refine ⟨st', e', ?_, ?_⟩
    · rw [h2, hd0, hi.dq, finished_eq]; rfl
    · rw [destructObjects.eq_def]; simp only [h1]

/-- C62 does not hold when a destructor loads an object: 0 is initialised, its destructor opens 7; the
destructors of 7 never run. -/
theorem destructor_opens_violated :
    ∃ st st', openAll (fun _ => []) (fun _ => []) 9 [1, 0] = .ok st ∧
      destructObjects (fun | 0 => [7] | _ => []) 9 st = .ok st' ∧ st'.dq = [] ∧ 7 ∈ st'.inited ∧
      destrs st'.log = [0, 1] :=
  ⟨_, _, rfl, rfl, rfl, by decide, rfl⟩

/-! ### C66: relocation -/

/-- C66: every object is relocated before the initialisers of anything that depends on it run, and only
once unless it depends on itself. -/
theorem relocated_once_partial {deps opens : Nat → List Nat} {roots : List Nat} {lim : Nat}
    (h : Setting deps opens roots lim) :
    ∃ st, openAll deps opens lim roots = .ok st ∧
      ∀ o, Needed deps opens roots o →
        (∀ d, Reach deps o d → EvBefore (.reloc d) (.start o) st.log) ∧
        ((∀ x, Reach deps o x → o ∉ deps x) → st.log.count (.reloc o) = 1) := by
  obtain ⟨V, hV, hl, hr⟩ := h.fin
  obtain ⟨st, e, hi, hid, hn⟩ := openAll_spec hV hl roots hr
  refine ⟨st, e, fun o ho => ?_⟩
  have hf := hid o ((hn o).2 ho)
  have hst := hi.fin o hf
  refine ⟨hi.relocFirst o hst, fun hc => ?_⟩
  obtain ⟨h1, h2, h3⟩ := hi.reloc o
  have h4 := List.count_pos_iff.2 (h1.1 (hi.linked o ((hn o).2 ho)))
  have h5 : st.log.count (.reloc o) ≠ 2 := fun h => by
    obtain ⟨x, hx, hx'⟩ := h3 h
    exact hc x hx hx'
  omega

example : Needed exDeps exOpens [0, 4, 5] 1 ∧ ∀ x, Reach exDeps 1 x → 1 ∉ exDeps x := by
  refine ⟨.dep (x := 0) (.root (by decide)) (by decide), fun x hx => ?_⟩
  have := hx.closed (S := fun x => x = 1 ∨ x = 3 ∨ x = 4) (by
    rintro x (rfl | rfl | rfl) y hy
    · exact .inr (.inl (by simpa [exDeps] using hy))
    · exact .inr (.inr (by simpa [exDeps] using hy))
    · exact .inr (.inl (by simpa [exDeps] using hy))) (.inl rfl)
  rcases this with rfl | rfl | rfl <;> decide

/-- The relocations of `DT_RELR` add the load address to a word in place.
options/rtld/generic/linker.cpp L2343-2372 -/
def relr (base word : Nat) : Nat := word + base

/-- C66 does not hold for an opened object that one of its dependencies needs: it is relocated twice,
and words with relative relocations are off by the load address. -/
theorem relocated_twice_violated :
    (∃ st, openAll (fun | 0 => [1] | 1 => [0] | _ => []) (fun _ => []) 9 [0] = .ok st ∧
      st.log.count (.reloc 0) = 2) ∧
    ∀ base word, base ≠ 0 → relr base (relr base word) ≠ word + base :=
  ⟨⟨_, rfl, by decide⟩, fun base word h => by unfold relr; omega⟩

end Mlibc.InitOrder
