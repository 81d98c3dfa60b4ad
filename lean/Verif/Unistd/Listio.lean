import Verif.Base

/-!
# Lists of asynchronous requests

`lio_listio`: sysdeps/linux/generic/posix/aio.cpp L709-787 and the part of `handle_cqe` that counts the completions, L450-467, with the
requests submitted and completed in any interleaving.  The values of the constants are those of abis/linux/aio.h L13-18.
-/

namespace Mlibc.Listio

/-- The members of `struct aiocb` that `lio_listio` looks at; `nbytes` is a `size_t`. -/
structure Cb where
  op : Nat
  nbytes : Nat

def SSIZE_MAX : Nat := 2 ^ 63 - 1

/-- L713-728: `validOpcodes` and `hasErrors`. -/
def count : List (Option Cb) → Nat × Bool
  | [] => (0, false)
  | none :: l => count l                                                          -- L717-718
  | some cb :: l =>
    let r := count l
    if cb.op = 0 ∨ cb.op = 1 then
      if cb.nbytes > SSIZE_MAX then (r.1, true) else (r.1 + 1, r.2)
    else if cb.op ≠ 2 then (r.1, true) else r

/-- L754-787, from index `i`: the requests that are handed to the worker, and those that get the error EINVAL at once. -/
def scan : Nat → List (Option Cb) → List Nat × List Nat
  | _, [] => ([], [])
  | i, none :: l => scan (i + 1) l
  | i, some cb :: l =>
    let r := scan (i + 1) l
    if cb.op = 2 then r                                                           -- L756
    else if ¬ (cb.op = 0 ∨ cb.op = 1) ∨ cb.nbytes > SSIZE_MAX then (r.1, i :: r.2)   -- L759-771
    else (i :: r.1, r.2)                                                          -- L773-786

/-- L257-264; `notify`: there is a notification and it is not SIGEV_NONE. -/
structure Ctx where
  pending : Int
  notify : Bool
  owned : Bool

/-- Requests that are not yet submitted, in flight and completed; notifications sent; `freed`: the context is. -/
structure St where
  todo : List Nat
  flying : List Nat
  done : List Nat
  marked : List Nat
  ctx : Option Ctx
  notified : Nat
  freed : Bool

/-- L730-787, before the first request is handed over.  The marks of L768-771 are made here already. -/
def start (wait notify : Bool) (l : List (Option Cb)) : St :=
  let v := (count l).1 % 2 ^ 32                                                   -- `uint32_t`
  if v = 0 then ⟨[], [], [], [], none, if wait = false ∧ notify = true then 1 else 0, false⟩          -- L730-734
  else
    let ctx := if wait = false
      then (if notify then some ⟨((v : Nat) : Int), true, true⟩ else none)        -- L737-743
      else some ⟨((v : Nat) : Int), notify, false⟩                                -- L744-752
    ⟨(scan 0 l).1, [], [], (scan 0 l).2, ctx, 0, false⟩

inductive Ev where
  | submit
  | complete (i : Nat)

/-- The caller hands over the next request (L786), or the worker handles a completion (L450-467). -/
def step (s : St) : Ev → Res St
  | .submit => match s.todo with
    | [] => .ok s
    | i :: t => .ok { s with todo := t, flying := i :: s.flying }
  | .complete i =>
    if i ∈ s.flying then
      let s := { s with flying := s.flying.erase i, done := i :: s.done }
      match s.ctx with
      | none => .ok s
      | some c =>
        if s.freed then .ub
        else
          let s := { s with ctx := some { c with pending := c.pending - 1 } }     -- L459
          if c.pending = 1 then                                                   -- L460-466
            .ok { s with notified := s.notified + (if c.notify then 1 else 0), freed := c.owned }
          else .ok s
    else .ok s

def run (s : St) : List Ev → Res St
  | [] => .ok s
  | e :: es => (step s e).bind fun s => run s es

/-- L779 (and L641, L663): `len` of the request has 32 bits. -/
def sqeLen (nbytes : Nat) : Nat := nbytes % 2 ^ 32

/-! ## Specification -/

/-- A request to read or to write of at most SSIZE_MAX bytes. -/
def Good (cb : Cb) : Prop := (cb.op = 0 ∨ cb.op = 1) ∧ cb.nbytes ≤ 9223372036854775807

/-- Neither that nor LIO_NOP. -/
def Bad (cb : Cb) : Prop := ¬ Good cb ∧ cb.op ≠ 2

/-! ## Theorems -/

theorem scan_mem (l : List (Option Cb)) : ∀ (i j : Nat),
    (j ∈ (scan i l).1 ↔ ∃ k cb, j = i + k ∧ l[k]? = some (some cb) ∧ Good cb) ∧
    (j ∈ (scan i l).2 ↔ ∃ k cb, j = i + k ∧ l[k]? = some (some cb) ∧ Bad cb) := by
  induction l with
  | nil => intro i j; simp [scan]
  | cons a l ih =>
    intro i j
    have shift : ∀ P : Cb → Prop, (∃ k cb, j = i + k ∧ (a :: l)[k]? = some (some cb) ∧ P cb) ↔
        ((∃ cb, j = i ∧ a = some cb ∧ P cb) ∨ ∃ k cb, j = i + 1 + k ∧ l[k]? = some (some cb) ∧ P cb) := by
      intro P
      constructor
      · rintro ⟨k, cb, h1, h2, h3⟩
        cases k with
        | zero => exact Or.inl ⟨cb, by omega, by simpa using h2, h3⟩
        | succ k => exact Or.inr ⟨k, cb, by omega, by simpa using h2, h3⟩
      · rintro (⟨cb, h1, h2, h3⟩ | ⟨k, cb, h1, h2, h3⟩)
        · exact ⟨0, cb, by omega, by simp [h2], h3⟩
        · exact ⟨k + 1, cb, by omega, by simpa using h2, h3⟩
    obtain ⟨i1, i2⟩ := ih (i + 1) j
    rw [shift Good, shift Bad, ← i1, ← i2]
    cases a with
    | none => simp [scan]
    | some cb =>
      have hsc : scan i (some cb :: l) = if cb.op = 2 then scan (i + 1) l
        else if ¬ (cb.op = 0 ∨ cb.op = 1) ∨ cb.nbytes > SSIZE_MAX then ((scan (i + 1) l).1, i :: (scan (i + 1) l).2)
        else (i :: (scan (i + 1) l).1, (scan (i + 1) l).2) := rfl
      rw [hsc]
      by_cases h2 : cb.op = 2
      · have : ¬ Good cb := by unfold Good; omega
        simp [h2, this, Bad]
      · by_cases hg : Good cb
        · have hn : ¬ (¬ (cb.op = 0 ∨ cb.op = 1) ∨ cb.nbytes > SSIZE_MAX) := by unfold Good at hg; unfold SSIZE_MAX; omega
          rw [if_neg h2, if_neg hn]
          simp [hg, Bad]
        · have hn : ¬ (cb.op = 0 ∨ cb.op = 1) ∨ cb.nbytes > SSIZE_MAX := by unfold Good at hg; unfold SSIZE_MAX; omega
          rw [if_neg h2, if_pos hn]
          simp [hg, Bad, h2]

theorem scan_nodup (l : List (Option Cb)) : ∀ i, (scan i l).1.Nodup := by
  induction l with
  | nil => intro i; simp [scan]
  | cons a l ih =>
    intro i
    cases a with
    | none => exact ih (i + 1)
    | some cb =>
      unfold scan
      dsimp only
      split
      · exact ih _
      · split
        · exact ih _
        · refine List.nodup_cons.mpr ⟨fun h => ?_, ih _⟩
          obtain ⟨k, _, h, _⟩ := (scan_mem l (i + 1) i).1.mp h
          omega

theorem count_scan (l : List (Option Cb)) : ∀ i, (count l).1 = (scan i l).1.length ∧ ((count l).2 = true ↔ (scan i l).2 ≠ []) ∧
    (scan i l).1.length ≤ l.length := by
  induction l with
  | nil => intro i; simp [count, scan]
  | cons a l ih =>
    intro i
    obtain ⟨h1, h2, h3⟩ := ih (i + 1)
    cases a with
    | none => exact ⟨h1, h2, by simp only [scan, List.length_cons]; omega⟩
    | some cb =>
      unfold count scan
      dsimp only
      by_cases ho : cb.op = 0 ∨ cb.op = 1
      · have hn : cb.op ≠ 2 := by omega
        by_cases hs : cb.nbytes > SSIZE_MAX
        · simp only [ho, hs, hn, if_true, if_false, List.length_cons]
          simp [h1]; omega
        · simp only [ho, hs, hn, if_true, if_false, List.length_cons]
          simp [h1, h2]; omega
      · by_cases hn : cb.op = 2
        · simp [hn, h1, h2]; omega
        · simp [ho, hn, h1]; omega

/-- **C142.** The call reports an error (without waiting) exactly if the list has a bad request. -/
theorem listio_error (l : List (Option Cb)) : (count l).2 = true ↔ ∃ (k : Nat) (cb : Cb), l[k]? = some (some cb) ∧ Bad cb := by
  rw [(count_scan l 0).2.1]
  constructor
  · intro h
    obtain ⟨j, hj⟩ := List.exists_mem_of_ne_nil _ h
    obtain ⟨k, cb, _, h2, h3⟩ := (scan_mem l 0 j).2.mp hj
    exact ⟨k, cb, h2, h3⟩
  · rintro ⟨k, cb, h2, h3⟩ he
    have := (scan_mem l 0 k).2.mpr ⟨k, cb, by omega, h2, h3⟩
    rw [he] at this
    simp at this

/-- What holds at all times. -/
structure Inv (all : List Nat) (s : St) : Prop where
  perm : (s.todo ++ (s.flying ++ s.done)).Perm all
  ctx : ∃ c, s.ctx = some c ∧ c.notify = true ∧ c.owned = true ∧ c.pending = ((s.todo.length + s.flying.length : Nat) : Int)
  count : s.notified = if s.todo.length + s.flying.length = 0 then 1 else 0
  freed : s.freed = true ↔ s.todo.length + s.flying.length = 0

theorem step_inv (all : List Nat) (s : St) (e : Ev) (h : Inv all s) : ∃ s', step s e = .ok s' ∧ Inv all s' := by
  obtain ⟨todo, flying, done, marked, ctx, notified, freed⟩ := s
  obtain ⟨hp, ⟨c, hc, hn, ho, hpe⟩, hcnt, hf⟩ := h
  dsimp only at hp hc hpe hcnt hf
  subst hc
  cases e with
  | submit =>
    cases todo with
    | nil => exact ⟨_, rfl, ⟨hp, ⟨c, rfl, hn, ho, hpe⟩, hcnt, hf⟩⟩
    | cons i t =>
      refine ⟨_, rfl, ⟨?_, ⟨c, rfl, hn, ho, ?_⟩, ?_, ?_⟩⟩
      · dsimp only
        rw [List.cons_append] at hp ⊢
        exact List.perm_middle.trans hp
      · dsimp only; simp only [List.length_cons] at hpe ⊢; omega
      · dsimp only; simp only [List.length_cons] at hcnt ⊢
        rw [hcnt, if_neg (by omega), if_neg (by omega)]
      · dsimp only; simp only [List.length_cons] at hf ⊢
        rw [hf]; omega
  | complete i =>
    unfold step
    dsimp only
    by_cases hi : i ∈ flying
    · have hlen : (flying.erase i).length + 1 = flying.length := by
        have := List.length_erase_of_mem hi
        have : 0 < flying.length := List.length_pos_of_mem hi
        omega
      have hfr : freed = false := by
        cases hfb : freed with
        | false => rfl
        | true => have := hf.mp hfb; omega
      subst hfr
      have hperm : (todo ++ (flying.erase i ++ i :: done)).Perm all := by
        refine List.Perm.trans (List.Perm.append_left _ ?_) hp
        exact List.perm_middle.trans ((List.perm_cons_erase hi).symm.append_right done)
      rw [if_pos hi]
      simp only [Bool.false_eq_true, if_false]
      by_cases h1 : c.pending = 1
      · rw [if_pos h1]
        have hz : todo.length + (flying.erase i).length = 0 := by omega
        have hcz : notified = 0 := by rw [hcnt, if_neg (by omega)]
        refine ⟨_, rfl, ⟨hperm, ⟨_, rfl, hn, ho, by dsimp only; omega⟩, ?_, ?_⟩⟩
        · dsimp only; rw [if_pos hz, hcz, hn]; rfl
        · dsimp only; rw [ho]; simp only [true_iff]; exact hz
      · rw [if_neg h1]
        have hcz : notified = 0 := by rw [hcnt, if_neg (by omega)]
        refine ⟨_, rfl, ⟨hperm, ⟨_, rfl, hn, ho, by dsimp only; omega⟩, ?_, ?_⟩⟩
        · dsimp only; rw [hcz, if_neg (by omega)]
        · dsimp only; simp only [Bool.false_eq_true, false_iff]; omega
    · rw [if_neg hi]
      exact ⟨_, rfl, ⟨hp, ⟨c, rfl, hn, ho, hpe⟩, hcnt, hf⟩⟩

theorem run_inv (all : List Nat) (es : List Ev) : ∀ s, Inv all s → ∃ s', run s es = .ok s' ∧ Inv all s' := by
  induction es with
  | nil => intro s h; exact ⟨s, rfl, h⟩
  | cons e es ih =>
    intro s h
    obtain ⟨s1, h1, h2⟩ := step_inv all s e h
    unfold run
    rw [h1]
    exact ih s1 h2

theorem run_empty (es : List Ev) : ∀ s : St, s.todo = [] → s.flying = [] → run s es = .ok s := by
  induction es with
  | nil => intro s _ _; rfl
  | cons e es ih =>
    intro s h1 h2
    have : step s e = .ok s := by cases e <;> simp [step, h1, h2]
    unfold run
    rw [this]
    exact ih s h1 h2

/-- **C142.** LIO_NOWAIT with a notification: however submissions and completions interleave, at every moment exactly one notification has
    been sent if every good request of the list is complete, and none before; the context is not used after it is freed. -/
theorem listio_notified_once (l : List (Option Cb)) (hl : l.length < 2 ^ 31) (es : List Ev) :
    ∃ s, run (start false true l) es = .ok s ∧
      ((∀ (k : Nat) (cb : Cb), l[k]? = some (some cb) → Good cb → k ∈ s.done) → s.notified = 1) ∧
      ((∃ (k : Nat) (cb : Cb), l[k]? = some (some cb) ∧ Good cb ∧ k ∉ s.done) → s.notified = 0) := by
  obtain ⟨c1, _, c3⟩ := count_scan l 0
  have hm : (count l).1 % 2 ^ 32 = (scan 0 l).1.length := by rw [c1]; omega
  unfold start
  dsimp only
  rw [hm]
  by_cases hz : (scan 0 l).1.length = 0
  · rw [if_pos hz, run_empty es _ rfl rfl]
    refine ⟨_, rfl, fun _ => rfl, ?_⟩
    rintro ⟨k, cb, h1, h2, _⟩
    have := (scan_mem l 0 k).1.mpr ⟨k, cb, by omega, h1, h2⟩
    rw [List.length_eq_zero_iff.mp hz] at this
    simp at this
  · rw [if_neg hz]
    obtain ⟨s, hs, hi⟩ := run_inv (scan 0 l).1 es ⟨(scan 0 l).1, [], [], (scan 0 l).2, some ⟨((scan 0 l).1.length : Int), true, true⟩, 0,
      false⟩ ⟨by simp, ⟨_, rfl, rfl, rfl, by simp⟩, by simp only [List.length_nil, Nat.add_zero]; rw [if_neg hz],
      by simp only [List.length_nil, Nat.add_zero, Bool.false_eq_true, false_iff]; exact hz⟩
    refine ⟨s, hs, ?_, ?_⟩
    · intro hall
      rw [hi.count]
      refine if_pos ?_
      have hnd : (s.todo ++ (s.flying ++ s.done)).Nodup := hi.perm.nodup_iff.mpr (scan_nodup l 0)
      have hnone : ∀ x, x ∈ s.todo ++ s.flying → False := by
        intro x hx
        have hxa : x ∈ (scan 0 l).1 := hi.perm.mem_iff.mp (by
          rw [← List.append_assoc]; exact List.mem_append_left _ hx)
        obtain ⟨k, cb, h1, h2, h3⟩ := (scan_mem l 0 x).1.mp hxa
        have hd := hall k cb h2 h3
        rw [show k = x by omega] at hd
        rw [← List.append_assoc] at hnd
        exact (List.nodup_append.mp hnd).2.2 x hx x hd rfl
      have := List.eq_nil_iff_forall_not_mem.mpr hnone
      rw [← List.length_append, this]; rfl
    · rintro ⟨k, cb, h1, h2, h3⟩
      have hk := hi.perm.mem_iff.mpr ((scan_mem l 0 k).1.mpr ⟨k, cb, by omega, h1, h2⟩)
      rw [← List.append_assoc] at hk
      rcases List.mem_append.mp hk with hk | hk
      · have := List.length_pos_of_mem hk
        rw [List.length_append] at this
        rw [hi.count, if_neg (by omega)]
      · exact absurd hk h3

/-- What holds at all times with LIO_WAIT. -/
structure WInv (all : List Nat) (s : St) : Prop where
  perm : (s.todo ++ (s.flying ++ s.done)).Perm all
  ctx : ∃ c, s.ctx = some c ∧ c.owned = false ∧ c.pending = ((s.todo.length + s.flying.length : Nat) : Int)
  freed : s.freed = false

theorem step_winv (all : List Nat) (s : St) (e : Ev) (h : WInv all s) : ∃ s', step s e = .ok s' ∧ WInv all s' := by
  obtain ⟨todo, flying, done, marked, ctx, notified, freed⟩ := s
  obtain ⟨hp, ⟨c, hc, ho, hpe⟩, hf⟩ := h
  dsimp only at hp hc hpe hf
  subst hc
  subst hf
  cases e with
  | submit =>
    cases todo with
    | nil => exact ⟨_, rfl, ⟨hp, ⟨c, rfl, ho, hpe⟩, rfl⟩⟩
    | cons i t =>
      refine ⟨_, rfl, ⟨?_, ⟨c, rfl, ho, ?_⟩, rfl⟩⟩
      · dsimp only
        rw [List.cons_append] at hp ⊢
        exact List.perm_middle.trans hp
      · dsimp only; simp only [List.length_cons] at hpe ⊢; omega
  | complete i =>
    unfold step
    dsimp only
    by_cases hi : i ∈ flying
    · have hlen : (flying.erase i).length + 1 = flying.length := by
        have := List.length_erase_of_mem hi
        have : 0 < flying.length := List.length_pos_of_mem hi
        omega
      have hperm : (todo ++ (flying.erase i ++ i :: done)).Perm all := by
        refine List.Perm.trans (List.Perm.append_left _ ?_) hp
        exact List.perm_middle.trans ((List.perm_cons_erase hi).symm.append_right done)
      rw [if_pos hi]
      simp only [Bool.false_eq_true, if_false]
      split
      · exact ⟨_, rfl, ⟨hperm, ⟨_, rfl, ho, by dsimp only; omega⟩, ho⟩⟩
      · exact ⟨_, rfl, ⟨hperm, ⟨_, rfl, ho, by dsimp only; omega⟩, rfl⟩⟩
    · rw [if_neg hi]
      exact ⟨_, rfl, ⟨hp, ⟨c, rfl, ho, hpe⟩, rfl⟩⟩

theorem run_winv (all : List Nat) (es : List Ev) : ∀ s, WInv all s → ∃ s', run s es = .ok s' ∧ WInv all s' := by
  induction es with
  | nil => intro s h; exact ⟨s, rfl, h⟩
  | cons e es ih =>
    intro s h
    obtain ⟨s1, h1, h2⟩ := step_winv all s e h
    unfold run
    rw [h1]
    exact ih s1 h2

/-- **C142.** LIO_WAIT, a list with a good request: the context stays, and at every moment the word that the caller waits for (L791) is zero
    exactly if every good request of the list is complete. -/
theorem listio_wait_word (notify : Bool) (l : List (Option Cb)) (hl : l.length < 2 ^ 31)
    (hg : ∃ (k : Nat) (cb : Cb), l[k]? = some (some cb) ∧ Good cb) (es : List Ev) :
    ∃ s c, run (start true notify l) es = .ok s ∧ s.ctx = some c ∧ s.freed = false ∧
      (c.pending = 0 ↔ ∀ (k : Nat) (cb : Cb), l[k]? = some (some cb) → Good cb → k ∈ s.done) := by
  obtain ⟨k0, cb0, g1, g2⟩ := hg
  have hpos := List.length_pos_of_mem ((scan_mem l 0 k0).1.mpr ⟨k0, cb0, by omega, g1, g2⟩)
  obtain ⟨c1, _, c3⟩ := count_scan l 0
  have hm : (count l).1 % 2 ^ 32 = (scan 0 l).1.length := by rw [c1]; omega
  unfold start
  dsimp only
  rw [hm, if_neg (by omega)]
  obtain ⟨s, hs, hi⟩ := run_winv (scan 0 l).1 es ⟨(scan 0 l).1, [], [], (scan 0 l).2, some ⟨((scan 0 l).1.length : Int), notify, false⟩, 0,
    false⟩ ⟨by simp, ⟨_, rfl, rfl, by simp⟩, rfl⟩
  obtain ⟨c, hc, _, hp⟩ := hi.ctx
  refine ⟨s, c, hs, hc, hi.freed, ?_, ?_⟩
  · intro h0 k cb h1 h2
    have hk := hi.perm.mem_iff.mpr ((scan_mem l 0 k).1.mpr ⟨k, cb, by omega, h1, h2⟩)
    rw [List.length_eq_zero_iff.mp (show s.todo.length = 0 by omega),
      List.length_eq_zero_iff.mp (show s.flying.length = 0 by omega)] at hk
    simpa using hk
  · intro hall
    have hnd : (s.todo ++ (s.flying ++ s.done)).Nodup := hi.perm.nodup_iff.mpr (scan_nodup l 0)
    have hnone : ∀ x, x ∈ s.todo ++ s.flying → False := by
      intro x hx
      have hxa : x ∈ (scan 0 l).1 := hi.perm.mem_iff.mp (by
        rw [← List.append_assoc]; exact List.mem_append_left _ hx)
      obtain ⟨k, cb, h1, h2, h3⟩ := (scan_mem l 0 x).1.mp hxa
      have hd := hall k cb h2 h3
      rw [show k = x by omega] at hd
      rw [← List.append_assoc] at hnd
      exact (List.nodup_append.mp hnd).2.2 x hx x hd rfl
    have := List.eq_nil_iff_forall_not_mem.mpr hnone
    rw [hp, ← List.length_append, this]; rfl

/-- **C142, partial.** If the list has a good request, exactly the bad ones get the error EINVAL at once.  Missing: a list without. -/
theorem listio_marks_partial (wait notify : Bool) (l : List (Option Cb)) (hl : l.length < 2 ^ 31)
    (hg : ∃ (k : Nat) (cb : Cb), l[k]? = some (some cb) ∧ Good cb) (j : Nat) :
    j ∈ (start wait notify l).marked ↔ ∃ cb : Cb, l[j]? = some (some cb) ∧ Bad cb := by
  obtain ⟨k, cb, h1, h2⟩ := hg
  have hk := List.length_pos_of_mem ((scan_mem l 0 k).1.mpr ⟨k, cb, by omega, h1, h2⟩)
  obtain ⟨c1, _, c3⟩ := count_scan l 0
  have hm : ¬ (count l).1 % 2 ^ 32 = 0 := by rw [c1]; omega
  unfold start
  dsimp only
  rw [if_neg hm]
  refine (scan_mem l 0 j).2.trans ⟨?_, ?_⟩
  · rintro ⟨k, cb, h1, h2, h3⟩
    exact ⟨cb, by rw [show j = k by omega]; exact h2, h3⟩
  · rintro ⟨cb, h1, h2⟩
    exact ⟨j, cb, by omega, h1, h2⟩

/-- **C142, violated.** A list of one bad request only: it gets no error. -/
theorem listio_marks_violated : Bad ⟨5, 1⟩ ∧ (start false true [some ⟨5, 1⟩]).marked = [] :=
  ⟨⟨by unfold Good; simp, by decide⟩, by decide⟩

/-- **C142, violated.** LIO_WAIT is to ignore the notification (POSIX); the code sends it. -/
theorem listio_wait_violated : (run (start true true [some ⟨0, 1⟩]) [.submit, .complete 0]).bind (fun s => .ok s.notified) = .ok 1 := by
  decide

/-- **C142, partial.** Fewer than 2^32 bytes are requested as they are.  Missing: more. -/
theorem aio_len_partial (n : Nat) (h : n < 4294967296) : sqeLen n = n := Nat.mod_eq_of_lt h

/-- **C142, violated.** A good request of 2^32 bytes becomes one of none, which looks like the end of the file. -/
theorem aio_len_violated : Good ⟨0, 4294967296⟩ ∧ sqeLen 4294967296 = 0 := ⟨⟨Or.inl rfl, by decide⟩, by decide⟩

/-- Two good requests, one bad, one null pointer, one LIO_NOP; the first completes before the second is submitted. -/
example : (run (start false true [some ⟨0, 1⟩, none, some ⟨7, 1⟩, some ⟨2, 1⟩, some ⟨1, 5⟩]) [.submit, .complete 0, .submit]).bind
    (fun s => .ok (s.notified, s.marked)) = .ok (0, [2]) ∧
    (run (start false true [some ⟨0, 1⟩, none, some ⟨7, 1⟩, some ⟨2, 1⟩, some ⟨1, 5⟩]) [.submit, .complete 0, .submit, .complete 4]).bind
    (fun s => .ok (s.notified, s.done)) = .ok (1, [4, 0]) := ⟨by decide, by decide⟩

end Mlibc.Listio
