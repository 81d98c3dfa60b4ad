import Verif.Base

/-
Fork handlers: pthread_atfork (options/posix/generic/pthread.cpp L716-738) and fork (options/posix/generic/unistd.cpp L1281-1317).
The handlers of a thread are a doubly linked list in its control block. A handler is a number, `none` a null pointer; the
handlers themselves do not call pthread_atfork. Memory does not run out. Property C77.
-/
namespace Mlibc.Fork
open Mlibc

/-! ## Model -/

/-- `Tcb::AtforkHandler`. options/internal/include/mlibc/tcb.hpp L105-113 -/
structure Node where
  prepare : Option Nat
  parent : Option Nat
  child : Option Nat
  next : Option Nat
  prev : Option Nat
  deriving DecidableEq, Repr

/-- The allocated nodes (the position is the address), and begin and end of every thread's list. -/
structure St where
  heap : List Node
  first : Nat → Option Nat
  last : Nat → Option Nat

def init : St := ⟨[], fun _ => none, fun _ => none⟩

/-- `node->next = addr`. -/
def setNext (heap : List Node) (node addr : Nat) : List Node := heap.modify node (fun n => { n with next := some addr })

/-- `pthread_atfork`, called by a thread. pthread.cpp L716-738 -/
def atfork (s : St) (t : Nat) (prepare parent child : Option Nat) : St :=
  let addr := s.heap.length
  let heap := s.heap ++ [⟨prepare, parent, child, none, s.last t⟩]
  let heap := match s.last t with
    | some e => setNext heap e addr
    | none => heap
  { heap := heap
    last := fun x => if x = t then some addr else s.last x
    first := fun x => if x = t then (if s.first t = none then some addr else s.first t) else s.first x }

/-- `hand = hand->prev` until the null pointer, with the calls of `prepare`. unistd.cpp L1287-1293 -/
def prepareLoop (heap : List Node) : Nat → Option Nat → Res (List Nat)
  | _, none => .ok []
  | 0, some _ => .ub
  | fuel + 1, some a => match heap[a]? with
    | none => .ub
    | some n => (prepareLoop heap fuel n.prev).bind fun r => .ok (n.prepare.toList ++ r)

/-- `hand = hand->next` with the calls of `parent` or `child`. unistd.cpp L1304-1314 -/
def afterLoop (heap : List Node) (isChild : Bool) : Nat → Option Nat → Res (List Nat)
  | _, none => .ok []
  | 0, some _ => .ub
  | fuel + 1, some a => match heap[a]? with
    | none => .ub
    | some n => (afterLoop heap isChild fuel n.next).bind fun r => .ok ((if isChild then n.child else n.parent).toList ++ r)

/-- What fork does: the calls before, and those after it in the parent and in the child; `fails`: the system call fails.
unistd.cpp L1281-1317 -/
def fork (s : St) (t : Nat) (fails : Bool) : Res (List Nat × Option (List Nat × List Nat)) :=
  (prepareLoop s.heap s.heap.length (s.last t)).bind fun before =>
  if fails then .ok (before, none)
  else (afterLoop s.heap false s.heap.length (s.first t)).bind fun p =>
    (afterLoop s.heap true s.heap.length (s.first t)).bind fun c => .ok (before, some (p, c))

/-! ## Specification -/
namespace Spec

/-- A registration. -/
structure Handlers where
  prepare : Option Nat
  parent : Option Nat
  child : Option Nat

/-- A program's calls of pthread_atfork: which thread, what. -/
abbrev History := List (Nat × Handlers)

end Spec
open Spec

/-- The state after these calls. pthread.cpp L716-738 -/
def after (h : History) : St := h.foldl (fun s x => atfork s x.1 x.2.prepare x.2.parent x.2.child) init

/-! ## Proof -/

/-- The list of a thread in the heap. -/
structure Linked (s : St) (t : Nat) (l : List Nat) (hs : List Handlers) : Prop where
  len : l.length = hs.length
  first : s.first t = l[0]?
  last : s.last t = l.getLast?
  node : ∀ i a, l[i]? = some a → ∃ n h, s.heap[a]? = some n ∧ hs[i]? = some h ∧ n.prepare = h.prepare ∧ n.parent = h.parent ∧ n.child = h.child ∧
    n.next = l[i + 1]? ∧ n.prev = (if i = 0 then none else l[i - 1]?)

theorem get_last (l : List Nat) : l.getLast? = l[l.length - 1]? := List.getLast?_eq_getElem?

theorem reachable (h : History) : ∃ ls : Nat → List Nat, (∀ t t', t ≠ t' → ∀ a ∈ ls t, a ∉ ls t') ∧ (∀ t, (ls t).Pairwise (· < ·)) ∧
    (∀ t, Linked (after h) t (ls t) ((h.filter (fun x => x.1 = t)).map (·.2))) := by
  suffices H : ∀ (h h0 : History) (s : St) (ls : Nat → List Nat), (∀ t t', t ≠ t' → ∀ a ∈ ls t, a ∉ ls t') → (∀ t, (ls t).Pairwise (· < ·)) →
      (∀ t, Linked s t (ls t) ((h0.filter (fun x => x.1 = t)).map (·.2))) →
      ∃ ls : Nat → List Nat, (∀ t t', t ≠ t' → ∀ a ∈ ls t, a ∉ ls t') ∧ (∀ t, (ls t).Pairwise (· < ·)) ∧
        (∀ t, Linked (h.foldl (fun s x => atfork s x.1 x.2.prepare x.2.parent x.2.child) s) t (ls t) (((h0 ++ h).filter (fun x => x.1 = t)).map (·.2))) by
    have := H h [] init (fun _ => []) (by simp) (by simp) (by
      intro t
      exact ⟨rfl, rfl, rfl, by intro i a h; simp at h⟩)
    rw [List.nil_append] at this
    exact this
  intro h
  induction h with
  | nil => intro h0 s ls h1 h2 h3; exact ⟨ls, h1, h2, by simpa using h3⟩
  | cons x h ih =>
    intro h0 s ls hdis hnd hl
    obtain ⟨t, hs⟩ := x
    have hlt : ∀ t' a, a ∈ ls t' → a < s.heap.length := by
      intro t' a ha
      obtain ⟨i, hi⟩ := List.getElem?_of_mem ha
      obtain ⟨n, _, hn, _⟩ := (hl t').node i a hi
      exact (List.getElem?_eq_some_iff.1 hn).1
    have := ih (h0 ++ [(t, hs)]) (atfork s t hs.prepare hs.parent hs.child) (fun x => if x = t then ls t ++ [s.heap.length] else ls x) ?_ ?_ ?_
    · simpa using this
    · intro a b hab x hx
      by_cases ha : a = t
      · subst ha
        rw [if_pos rfl] at hx
        rw [if_neg (Ne.symm hab)]
        rcases List.mem_append.1 hx with hx | hx
        · exact hdis a b hab x hx
        · rw [List.mem_singleton] at hx
          intro hxb
          have := hlt b x hxb
          omega
      · rw [if_neg ha] at hx
        by_cases hb : b = t
        · subst hb
          rw [if_pos rfl]
          intro hmem
          rcases List.mem_append.1 hmem with h | h
          · exact hdis a b hab x hx h
          · rw [List.mem_singleton] at h
            have := hlt a x hx
            omega
        · rw [if_neg hb]
          exact hdis a b hab x hx
    · intro a
      by_cases ha : a = t
      · rw [if_pos ha, List.pairwise_append]
        refine ⟨hnd t, by simp, ?_⟩
        intro x hx y hy
        rw [List.mem_singleton] at hy
        have := hlt t x hx
        omega
      · rw [if_neg ha]; exact hnd a
    · intro u
      -- the heap afterwards
      have hheap : ∀ a n, s.heap[a]? = some n →
          (atfork s t hs.prepare hs.parent hs.child).heap[a]? = some (if s.last t = some a then { n with next := some s.heap.length } else n) := by
        intro a n hn
        have halt := (List.getElem?_eq_some_iff.1 hn).1
        unfold atfork
        simp only []
        cases hlast : s.last t with
        | none =>
          simp only []
          rw [List.getElem?_append_left halt, hn]
          simp
        | some e =>
          simp only [setNext]
          rw [List.getElem?_modify, List.getElem?_append_left halt, hn]
          by_cases he : e = a
          · simp [he]
          · simp [he]
      have hnew : (atfork s t hs.prepare hs.parent hs.child).heap[s.heap.length]? = some ⟨hs.prepare, hs.parent, hs.child, none, s.last t⟩ := by
        unfold atfork
        simp only []
        cases hlast : s.last t with
        | none => simp
        | some e =>
          simp only [setNext]
          rw [List.getElem?_modify]
          have he : e ≠ s.heap.length := by
            have hm : e ∈ ls t := List.mem_of_getLast? (by rw [← (hl t).last]; exact hlast)
            have := hlt t e hm
            omega
          simp [he]
      by_cases hu : u = t
      · subst hu
        simp only [if_pos trivial]
        rw [List.filter_append, List.map_append]
        simp only [decide_true, List.filter_cons_of_pos, List.filter_nil, List.map_cons, List.map_nil]
        have hL := hl u
        refine ⟨by simp [hL.len], ?_, ?_, ?_⟩
        · unfold atfork
          simp only [if_pos trivial]
          rw [hL.first]
          cases hlu : ls u with
          | nil => simp
          | cons a l => simp
        · unfold atfork
          simp
        · intro i a hi
          by_cases hlti : i < (ls u).length
          · rw [List.getElem?_append_left hlti] at hi
            obtain ⟨n, hh, hn, hhs, h1, h2, h3, h4, h5⟩ := hL.node i a hi
            have halt := (List.getElem?_eq_some_iff.1 hn).1
            refine ⟨_, hh, hheap a n hn, ?_, ?_, ?_, ?_, ?_, ?_⟩
            · rw [List.getElem?_append_left (by rw [← hL.len]; exact hlti)]
              exact hhs
            · split <;> exact h1
            · split <;> exact h2
            · split <;> exact h3
            · rw [hL.last, get_last]
              by_cases hend : i + 1 = (ls u).length
              · have hi' : (ls u)[(ls u).length - 1]? = some a := by rw [← hend]; exact hi
                rw [if_pos hi']
                show some s.heap.length = _
                rw [hend, List.getElem?_append_right (Nat.le_refl _)]
                simp
              · rw [if_neg]
                · rw [h4, List.getElem?_append_left (by omega)]
                · intro he
                  have hl1 : (ls u).length - 1 < (ls u).length := by omega
                  have e1 := (List.getElem?_eq_some_iff.1 he).2
                  have e2 := (List.getElem?_eq_some_iff.1 hi).2
                  have hnd' : (ls u).Nodup := (hnd u).imp (fun h => Nat.ne_of_lt h)
                  have := (List.getElem_inj hnd').1 (e1.trans e2.symm)
                  omega
            · have hprev : (if s.last u = some a then { n with next := some s.heap.length } else n).prev = n.prev := by split <;> rfl
              rw [hprev, h5]
              split
              · rfl
              · rw [List.getElem?_append_left (by omega)]
          · have hi2 : i = (ls u).length := by
              have := (List.getElem?_eq_some_iff.1 hi).1
              simp at this
              omega
            subst hi2
            rw [List.getElem?_append_right (Nat.le_refl _)] at hi
            simp only [Nat.sub_self, List.getElem?_cons_zero, Option.some.injEq] at hi
            subst hi
            refine ⟨_, hs, hnew, ?_, rfl, rfl, rfl, ?_, ?_⟩
            · rw [hL.len, List.getElem?_append_right (Nat.le_refl _)]
              simp
            · rw [List.getElem?_eq_none (by simp)]
            · show s.last u = _
              rw [hL.last, get_last]
              split
              · rename_i h0
                rw [List.length_eq_zero_iff.1 h0]
                rfl
              · rw [List.getElem?_append_left (by omega)]
      · simp only [if_neg hu]
        rw [List.filter_append, List.map_append]
        simp only [show decide (t = u) = false from decide_eq_false (fun e => hu e.symm), Bool.false_eq_true, not_false_eq_true, List.filter_cons_of_neg,
          List.filter_nil, List.map_nil, List.append_nil]
        have hL := hl u
        refine ⟨hL.len, ?_, ?_, ?_⟩
        · unfold atfork
          simp only [if_neg hu]
          exact hL.first
        · unfold atfork
          simp only [if_neg hu]
          exact hL.last
        · intro i a hi
          obtain ⟨n, hh, hn, hrest⟩ := hL.node i a hi
          refine ⟨n, hh, ?_, hrest⟩
          rw [hheap a n hn, if_neg]
          intro hlast
          have hm : a ∈ ls t := List.mem_of_getLast? (by rw [← (hl t).last]; exact hlast)
          exact hdis u t hu a (List.mem_of_getElem? hi) hm

theorem prepareLoop_spec {s : St} {t : Nat} {l : List Nat} {hs : List Handlers} (h : Linked s t l hs) (i : Nat) (hi : i ≤ l.length) (fuel : Nat) (hf : i ≤ fuel) :
    prepareLoop s.heap fuel (if i = 0 then none else l[i - 1]?) = .ok ((hs.take i).reverse.flatMap (fun x => x.prepare.toList)) := by
  induction i generalizing fuel with
  | zero => cases fuel <;> simp [prepareLoop]
  | succ i ih =>
    rw [if_neg (by omega), show i + 1 - 1 = i from rfl, List.getElem?_eq_getElem (by omega)]
    obtain ⟨n, hh, hn, hhs, h1, h2, h3, h4, h5⟩ := h.node i _ (List.getElem?_eq_getElem (by omega))
    match fuel, hf with
    | fuel + 1, hf =>
      simp only [prepareLoop]
      rw [hn]
      simp only []
      rw [h5, ih (by omega) fuel (by omega)]
      simp only [Res.bind]
      have ht : hs.take (i + 1) = hs.take i ++ [hh] := by
        rw [List.take_succ_eq_append_getElem (by rw [← h.len]; omega)]
        rw [List.getElem?_eq_getElem (by rw [← h.len]; omega)] at hhs
        injection hhs with hhs
        rw [hhs]
      rw [ht, h1]
      simp

theorem afterLoop_spec {s : St} {t : Nat} {l : List Nat} {hs : List Handlers} (h : Linked s t l hs) (isChild : Bool) (k i : Nat) (hk : k + i = l.length) (fuel : Nat) (hf : k ≤ fuel) :
    afterLoop s.heap isChild fuel l[i]? = .ok ((hs.drop i).flatMap (fun x => (if isChild then x.child else x.parent).toList)) := by
  induction k generalizing i fuel with
  | zero =>
    rw [List.getElem?_eq_none (by omega), List.drop_eq_nil_of_le (by rw [← h.len]; omega)]
    cases fuel <;> rfl
  | succ k ih =>
    rw [List.getElem?_eq_getElem (by omega)]
    obtain ⟨n, hh, hn, hhs, h1, h2, h3, h4, h5⟩ := h.node i _ (List.getElem?_eq_getElem (by omega))
    match fuel, hf with
    | fuel + 1, hf =>
      simp only [afterLoop]
      rw [hn]
      simp only []
      rw [h4, ih (i + 1) (by omega) fuel (by omega)]
      simp only [Res.bind]
      have ht : hs.drop i = hh :: hs.drop (i + 1) := by
        rw [List.drop_eq_getElem_cons (by rw [← h.len]; omega)]
        rw [List.getElem?_eq_getElem (by rw [← h.len]; omega)] at hhs
        injection hhs with hhs
        rw [hhs]
      rw [ht, h2, h3]
      simp

theorem sorted_length (l : List Nat) (m n : Nat) (h : l.Pairwise (· < ·)) (hm : ∀ a ∈ l, m ≤ a) (hn : ∀ a ∈ l, a < n) : l.length ≤ n - m := by
  induction l generalizing m with
  | nil => exact Nat.zero_le _
  | cons a l ih =>
    rw [List.pairwise_cons] at h
    have h1 := ih (a + 1) h.2 (fun b hb => h.1 b hb) (fun b hb => hn b (by simp [hb]))
    have h2 := hm a (by simp)
    have h3 := hn a (by simp)
    rw [List.length_cons]
    omega

/-- The heap has room for a thread's list. -/
theorem length_le {s : St} {t : Nat} {l : List Nat} {hs : List Handlers} (h : Linked s t l hs) (hnd : l.Pairwise (· < ·)) : l.length ≤ s.heap.length := by
  refine sorted_length l 0 _ hnd (fun _ _ => Nat.zero_le _) ?_
  intro a ha
  obtain ⟨i, hi⟩ := List.getElem?_of_mem ha
  obtain ⟨n, _, hn, _⟩ := h.node i a hi
  exact (List.getElem?_eq_some_iff.1 hn).1

/-! ## C77 -/

/-- What fork calls, for every history of registrations: before it the prepare handlers in reverse order, after it the handlers for the
parent and the child in order. Partial: those that the forking thread has registered itself; and if the system call fails the
handlers for the parent are not called. -/
theorem fork_handlers_partial (h : History) (t : Nat) :
    let mine := (h.filter (fun x => x.1 = t)).map (·.2)
    fork (after h) t false = .ok (mine.reverse.flatMap (fun x => x.prepare.toList),
      some (mine.flatMap (fun x => x.parent.toList), mine.flatMap (fun x => x.child.toList))) ∧
    fork (after h) t true = .ok (mine.reverse.flatMap (fun x => x.prepare.toList), none) := by
  intro mine
  obtain ⟨ls, _, hnd, hl⟩ := reachable h
  have hL := hl t
  have hle := length_le hL (hnd t)
  have hp := prepareLoop_spec hL (ls t).length (Nat.le_refl _) (after h).heap.length hle
  have hlast : (after h).last t = (if (ls t).length = 0 then none else (ls t)[(ls t).length - 1]?) := by
    rw [hL.last, get_last]
    split
    · rename_i h0
      rw [List.length_eq_zero_iff.1 h0]; rfl
    · rfl
  rw [← hlast, List.take_of_length_le (by rw [hL.len]; exact Nat.le_refl _)] at hp
  have ha := fun c => afterLoop_spec hL c (ls t).length 0 (by omega) (after h).heap.length hle
  rw [← hL.first] at ha
  have ha1 := ha false
  have ha2 := ha true
  simp only [List.drop_zero, if_true, Bool.false_eq_true, if_false] at ha1 ha2
  unfold fork
  rw [hp, ha1, ha2]
  exact ⟨rfl, rfl⟩

/-- A program with one thread: all handlers. -/
theorem fork_single_thread (hs : List Handlers) (t : Nat) :
    fork (after (hs.map (fun x => (t, x)))) t false = .ok (hs.reverse.flatMap (fun x => x.prepare.toList),
      some (hs.flatMap (fun x => x.parent.toList), hs.flatMap (fun x => x.child.toList))) := by
  have h := (fork_handlers_partial (hs.map (fun x => (t, x))) t).1
  have hm : ((hs.map (fun x => (t, x))).filter (fun x => x.1 = t)).map (·.2) = hs := by
    clear h
    induction hs with
    | nil => rfl
    | cons x hs ih => simpa using ih
  simp only [hm] at h
  exact h

/-! ### Examples and where the code differs -/

example : fork (after [(1, ⟨some 10, some 11, some 12⟩), (1, ⟨some 20, none, some 22⟩), (1, ⟨none, some 31, none⟩)]) 1 false =
    .ok ([20, 10], some ([11, 31], [12, 22])) := by decide +kernel

/-- Handlers that another thread has registered are not called. -/
theorem other_thread_violated : fork (after [(1, ⟨some 10, some 11, some 12⟩)]) 2 false = .ok ([], some ([], [])) := by decide +kernel

/-- If fork fails, what the prepare handlers did (locking, usually) is not undone. -/
theorem failure_violated : fork (after [(1, ⟨some 10, some 11, some 12⟩)]) 1 true = .ok ([10], none) := by decide +kernel

end Mlibc.Fork
