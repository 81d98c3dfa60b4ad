import Verif.Conc.Barrier
/- Properties of barriers: C39. -/
set_option linter.unusedSimpArgs false
namespace Mlibc.Conc.Barrier

theorem round_mono {c p : Nat} {s s' : St} {e : Tid × Lab} (hs : Sys c p s e s') : s.round ≤ s'.round := by
  obtain ⟨t, l⟩ := e
  simp only [Sys] at hs
  cases hs <;> simp

theorem round_mono_run {c p : Nat} {s s' : St} {tr : List (Tid × Lab)} (hr : Run (Sys c p) s tr s') :
    s.round ≤ s'.round := by
  induction hr with
  | nil => exact Nat.le_refl _
  | cons h _ ih => exact Nat.le_trans (round_mono h) ih

theorem inv_run {c p : Nat} (hp : Params c p) {tr tr' : List (Tid × Lab)} {s s' : St} (h : Inv c p tr s)
    (hr : Run (Sys c p) s tr' s') (hb : s'.round < roundLimit p) : Inv c p (tr ++ tr') s' := by
  induction hr generalizing tr with
  | nil => simpa using h
  | @cons s e s1 tr2 s2 hs hr' ih =>
    have := ih (inv_step hp h hs (Nat.lt_of_le_of_lt (round_mono_run hr') hb)) hb
    simpa using this

/-- **C39** (safety): in every execution by any number of threads, while fewer rounds than `roundLimit` have completed
(2^32 divided by the count rounded up to a power of two): a thread returns from a round only when `c` threads have
joined it, no round is joined by more than `c` threads, no round names two serial threads, and a full round all of
whose threads have returned has named exactly one.
Missing from the full property: more rounds (`barrier_wrap_violated`). -/
theorem barrier_rounds_partial {c p : Nat} (hp : Params c p) {s0 s : St} {tr : List (Tid × Lab)} (h0 : Init s0)
    (hr : Run (Sys c p) s0 tr s) (hb : s.round < roundLimit p) :
    (∀ g, returned tr g ≠ 0 → joined tr g = c) ∧ (∀ g, joined tr g ≤ c) ∧ (∀ g, serials tr g ≤ 1) ∧
    (∀ g, joined tr g = c → (∀ t, s.pc t = .out) → serials tr g = 1) := by
  have hi := inv_run hp (inv_init hp _ h0) hr hb
  simp only [List.nil_append] at hi
  refine ⟨fun g h => hi.full g (hi.ret g h), fun g => ?_, fun g => ?_, fun g h hq => ?_⟩
  · rcases Nat.lt_trichotomy g s.round with h | h | h
    · rw [hi.full g h]; omega
    · subst h; exact Nat.le_of_lt hi.word.2
    · rw [hi.none g h]; omega
  · rcases hi.serial0 g with h | h <;> omega
  · have hlt : g < s.round := by
      rcases Nat.lt_trichotomy g s.round with h' | h' | h'
      · exact h'
      · subst h'; have := hi.word.2; omega
      · have := hi.none g h'; have := hp.pos; omega
    rcases hi.serial1 g hlt with h' | ⟨t, h'⟩
    · exact h'
    · rw [hq t] at h'; simp [Pc.lastOf] at h'

/-! ### A thread returns from the round it joined -/

/-- Times thread `t` joined round `g`. -/
def joinedBy (tr : List (Tid × Lab)) (t : Tid) (g : Nat) : Nat := tr.countP (fun e => e.1 = t ∧ e.2 = .join g)

/-- Times thread `t` returned from round `g`. -/
def returnedBy (tr : List (Tid × Lab)) (t : Tid) (g : Nat) : Nat :=
  tr.countP (fun e => e.1 = t ∧ (e.2 = .ret g true ∨ e.2 = .ret g false))

/-- 1 if the thread is inside round `g`. -/
def Pc.inside (g : Nat) : Pc → Nat
  | .wait g' _ | .fut g' _ _ | .sleep g' _ _ | .store g' _ | .wake g' => if g' = g then 1 else 0
  | _ => 0

theorem inside_step {c p : Nat} {s s' : St} {e : Tid × Lab} (hs : Sys c p s e s') (u : Tid) (g : Nat) :
    joinedBy [e] u g + (s.pc u).inside g = returnedBy [e] u g + (s'.pc u).inside g := by
  obtain ⟨t, l⟩ := e
  simp only [Sys] at hs
  simp only [joinedBy, returnedBy, List.countP_singleton]
  cases hs <;> (try simp only) <;> grind [Pc.inside, wakeAll]

/-- **C39**: in every execution, what thread `t` returned from is what it joined: it has joined round `g` as often as it
has returned from it, or once more while it is inside. -/
theorem barrier_returns_joined {c p : Nat} {s0 s : St} {tr : List (Tid × Lab)} (h0 : Init s0)
    (hr : Run (Sys c p) s0 tr s) (t : Tid) (g : Nat) :
    joinedBy tr t g = returnedBy tr t g + (s.pc t).inside g := by
  have key : ∀ {s s' : St} {tr : List (Tid × Lab)}, Run (Sys c p) s tr s' →
      joinedBy tr t g + (s.pc t).inside g = returnedBy tr t g + (s'.pc t).inside g := by
    intro s s' tr hr
    induction hr with
    | nil s => simp [joinedBy, returnedBy]
    | @cons s e s1 tr s2 hs _ ih =>
      have h1 := inside_step hs t g
      have a1 : joinedBy (e :: tr) t g = joinedBy [e] t g + joinedBy tr t g := by
        simp only [joinedBy]; rw [← List.countP_append]; rfl
      have a2 : returnedBy (e :: tr) t g = returnedBy [e] t g + returnedBy tr t g := by
        simp only [returnedBy]; rw [← List.countP_append]; rfl
      omega
  have := key hr
  rw [h0.2.2.2 t] at this
  simpa [Pc.inside] using this

/-! ### Liveness when exactly `c` threads use the barrier -/

/-- Threads below `c` satisfying `Q`. -/
def cnt (c : Nat) (Q : Pc → Bool) (pc : Tid → Pc) : Nat := (List.range c).countP (fun u => Q (pc u))

theorem cnt_upd (c : Nat) (Q : Pc → Bool) (pc : Tid → Pc) (t : Nat) (x : Pc) (ht : t < c) :
    cnt c Q (upd pc t x) + (if Q (pc t) then 1 else 0) = cnt c Q pc + (if Q x then 1 else 0) := by
  have off : ∀ c, c ≤ t → cnt c Q (upd pc t x) = cnt c Q pc := by
    intro c hc
    unfold cnt
    apply List.countP_congr
    intro u hu
    rw [List.mem_range] at hu
    have : u ≠ t := by rintro rfl; exact absurd hu (Nat.not_lt.2 hc)
    simp [this]
  induction c with
  | zero => omega
  | succ c ih =>
    have e1 : ∀ pc, cnt (c + 1) Q pc = cnt c Q pc + if Q (pc c) then 1 else 0 := by
      intro pc
      simp [cnt, List.range_succ, List.countP_append, List.countP_singleton]
    rw [e1, e1]
    by_cases h : t = c
    · subst h
      rw [off t (Nat.le_refl _)]
      simp
      omega
    · have hc : c ≠ t := fun e => h e.symm
      have := ih (by omega)
      simp [hc]
      omega

theorem cnt_congr (c : Nat) (Q Q' : Pc → Bool) (pc pc' : Tid → Pc) (h : ∀ u, u < c → Q (pc u) = Q' (pc' u)) :
    cnt c Q pc = cnt c Q' pc' := by
  unfold cnt
  apply List.countP_congr
  intro u hu
  rw [List.mem_range] at hu
  simp [h u hu]

theorem cnt_zero (c : Nat) (Q : Pc → Bool) (pc : Tid → Pc) (h : ∀ u, u < c → Q (pc u) = false) : cnt c Q pc = 0 := by
  unfold cnt
  rw [List.countP_eq_zero]
  intro u hu
  rw [List.mem_range] at hu
  simp [h u hu]

theorem cnt_full (c : Nat) (Q : Pc → Bool) (pc : Tid → Pc) (h : cnt c Q pc = c) : ∀ u, u < c → Q (pc u) = true := by
  unfold cnt at h
  have : (List.range c).countP (fun u => Q (pc u)) = (List.range c).length := by rw [h, List.length_range]
  rw [List.countP_eq_length] at this
  intro u hu
  exact this u (List.mem_range.2 hu)

/-- In round `r`, waiting for the others. -/
def Pc.waitsIn (r : Nat) : Pc → Bool
  | .wait g _ | .fut g _ _ | .sleep g _ _ => g = r
  | _ => false

/-- In round `r`, waiting for the others or about to release them. -/
def Pc.holdsIn (r : Nat) : Pc → Bool
  | .wait g _ | .fut g _ _ | .sleep g _ _ | .store g _ => g = r
  | _ => false

structure Live (c : Nat) (tr : List (Tid × Lab)) (s : St) : Prop where
  count : cnt c (Pc.waitsIn s.round) s.pc = joined tr s.round
  seq : s.seq = s.round ∨ (s.seq + 1 = s.round ∧ (∃ t gen, s.pc t = .store s.seq gen) ∧
    ∀ u, u < c → (s.pc u).holdsIn s.seq = true)
  sleepers : ∀ t g gen q, s.pc t = .sleep g gen q → q = s.seq ∨ ∃ u g', s.pc u = .wake g'
  pend : ∀ t g gen, s.pc t = .store g gen → s.seq = g ∧ s.round = g + 1

theorem live_init (c : Nat) (s : St) (h : Init s) : Live c [] s := by
  obtain ⟨h1, h2, h3, h4⟩ := h
  constructor
  · rw [cnt_zero]; · simp [joined]
    intro u _; rw [h4]; rfl
  · left; rw [h2, h3]
  · intro t g gen q ht; rw [h4] at ht; cases ht
  · intro t g gen ht; rw [h4] at ht; cases ht

theorem waits_holds {r : Nat} {x : Pc} (h : x.waitsIn r = true) : x.holdsIn r = true := by
  cases x <;> simp_all [Pc.waitsIn, Pc.holdsIn]

/-- Steps that only move a thread inside or outside a round. -/
theorem live_pc {c : Nat} {tr : List (Tid × Lab)} {s : St} {t : Nat} {l : Lab} {x : Pc} (h : Live c tr s) (ht : t < c)
    (hl : ∀ g, l ≠ .join g) (hw : x.waitsIn s.round = (s.pc t).waitsIn s.round)
    (hh : (s.pc t).holdsIn s.seq = true → x.holdsIn s.seq = true)
    (hk : ∀ g, s.pc t ≠ .wake g) (hs : ∀ g gen, s.pc t ≠ .store g gen) (hs' : ∀ g gen, x ≠ .store g gen)
    (hq : ∀ g gen q, x = .sleep g gen q → q = s.seq) : Live c (tr ++ [(t, l)]) { s with pc := upd s.pc t x } := by
  obtain ⟨h1, h2, h3, h4⟩ := h
  have e := cnt_upd c (Pc.waitsIn s.round) s.pc t x ht
  rw [hw] at e
  refine ⟨?_, ?_, ?_, ?_⟩
  · simp only [joined_snoc, hl, if_false]; omega
  · simp only
    refine h2.imp id (fun h => ⟨h.1, ?_, ?_⟩)
    · obtain ⟨u, gen, hu⟩ := h.2.1
      refine ⟨u, gen, ?_⟩
      rw [upd_apply, if_neg (by rintro rfl; exact hs _ _ hu)]; exact hu
    · intro u hu
      rw [upd_apply]
      split
      · rename_i e; subst e; exact hh (h.2.2 u hu)
      · exact h.2.2 u hu
  · intro u g gen q hu
    simp only [upd_apply] at hu
    split at hu
    · exact .inl (hq _ _ _ hu)
    · rcases h3 u g gen q hu with h | ⟨v, g', hv⟩
      · exact .inl h
      · refine .inr ⟨v, g', ?_⟩
        show upd s.pc t x v = _
        rw [upd_apply, if_neg (by rintro rfl; exact hk _ hv)]; exact hv
  · intro u g gen hu
    simp only [upd_apply] at hu
    split at hu
    · exact absurd hu (hs' _ _)
    · exact h4 u g gen hu

theorem live_step {c p : Nat} (hp : Params c p) {tr : List (Tid × Lab)} {s s' : St} {t : Nat} {l : Lab}
    (hi : Inv c p tr s) (h : Live c tr s) (ht : t < c) (hs : Sys c p s (t, l) s') (hb : s'.round < roundLimit p) :
    Live c (tr ++ [(t, l)]) s' := by
  have hi' := inv_step hp hi hs hb
  have hL := h
  obtain ⟨h1, h2, h3, h4⟩ := h
  have hlim := limit_mul hp hb
  have haf : ∀ g, s.round < 2 ^ 31 → g ≤ s.round → (after s.seq g ↔ g < s.seq) :=
    fun g h hg => after_iff (by have := hi.seqLe; omega) (by omega) (by have := hi.seqLe; omega)
  have hle := hp.le
  have hdec := decode (r := s.round) (w := joined tr s.round) (p := p) (by have := hi.word.2; omega)
  rw [← hi.word.1] at hdec
  have hgen := hi.gen
  have hgenF := hi.genF
  have hgenS := hi.genS
  have hlast := hi.last
  have hlastLt := hi.lastLt
  have hseqLe := hi.seqLe
  have hu := fun x => cnt_upd c (Pc.waitsIn s.round) s.pc t x ht
  simp only [Sys] at hs
  cases hs
  case joinLast old hpc hl hw =>
    subst hw
    simp only at hb hlim
    rw [hdec.2] at hl
    simp only [hdec.1]
    have hseq : s.seq = s.round := by
      rcases h2 with h | ⟨_, _, h⟩
      · exact h
      · have := h t ht; rw [hpc] at this; simp [Pc.holdsIn] at this
    refine ⟨?_, .inr ⟨by simp only; omega, ⟨t, s.round, by simp [hseq]⟩, ?_⟩, ?_, ?_⟩
    · simp only [joined_snoc]
      rw [cnt_zero, hi.none _ (by omega)]
      · simp
      · intro u _
        have a1 := hgen u; have a2 := hgenF u; have a3 := hgenS u
        simp only [upd_apply]
        split
        · rfl
        · cases hpu : s.pc u <;> grind [Pc.waitsIn]
    · have e := hu (.wait s.round 0)
      rw [hpc, h1] at e
      simp only [Pc.waitsIn, decide_true, if_true, Bool.false_eq_true, if_false] at e
      have hfull := cnt_full c (Pc.waitsIn s.round) (upd s.pc t (.wait s.round 0)) (by omega)
      intro u huc
      have := hfull u huc
      simp only [upd_apply] at this ⊢
      split
      · simp [Pc.holdsIn, hseq]
      · rename_i e; rw [if_neg e] at this
        rw [hseq]
        exact waits_holds this
    · intro u g gen q hu2
      simp only [upd_apply] at hu2
      split at hu2
      · cases hu2
      · rcases h3 u g gen q hu2 with h | ⟨v, g', hv⟩
        · exact .inl h
        · refine .inr ⟨v, g', ?_⟩
          simp only [upd_apply]
          split
          · rename_i e; rw [e, hpc] at hv; cases hv
          · exact hv
    · intro u g gen hu2
      simp only [upd_apply] at hu2 ⊢
      split at hu2
      · cases hu2; exact ⟨hseq, rfl⟩
      · have := h4 u g gen hu2; omega
  case join old hpc hl hw =>
    subst hw
    simp only at hb hlim
    rw [hdec.2] at hl
    simp only [hdec.1]
    have e := hu (.wait s.round s.round)
    rw [hpc, h1] at e
    simp only [Pc.waitsIn, decide_true, if_true, Bool.false_eq_true, if_false] at e
    have hseq : s.seq = s.round := by
      rcases h2 with h | ⟨_, _, h⟩
      · exact h
      · have := h t ht; rw [hpc] at this; simp [Pc.holdsIn] at this
    refine ⟨?_, .inl hseq, ?_, ?_⟩
    · simp only [joined_snoc, if_true]; omega
    · intro u g gen q hu2
      simp only [upd_apply] at hu2
      split at hu2
      · cases hu2
      · rcases h3 u g gen q hu2 with h | ⟨v, g', hv⟩
        · exact .inl h
        · refine .inr ⟨v, g', ?_⟩
          simp only [upd_apply]
          split
          · rename_i e; rw [e, hpc] at hv; cases hv
          · exact hv
    · intro u g gen hu2
      simp only [upd_apply] at hu2 ⊢
      split at hu2
      · cases hu2
      · exact h4 u g gen hu2
  case wake g hpc =>
    have hx : ∀ u, upd (wakeAll s.pc) t .out u = if u = t then .out else
      match s.pc u with
      | .sleep g gen _ => .wait g gen
      | p => p := fun u => rfl
    have hw : cnt c (Pc.waitsIn s.round) (wakeAll s.pc) = cnt c (Pc.waitsIn s.round) s.pc := by
      apply cnt_congr
      intro u _
      unfold wakeAll
      split <;> rename_i hpu <;> simp [Pc.waitsIn, hpu]
    have e := cnt_upd c (Pc.waitsIn s.round) (wakeAll s.pc) t .out ht
    have e2 : wakeAll s.pc t = .wake g := by simp [wakeAll, hpc]
    rw [e2, hw, h1] at e
    simp only [Pc.waitsIn, Bool.false_eq_true, if_false] at e
    refine ⟨?_, ?_, ?_, ?_⟩
    · simp only [joined_snoc]; simpa using e
    · simp only
      refine h2.imp id (fun h => ?_)
      have := h.2.2 t ht
      rw [hpc] at this
      simp [Pc.holdsIn] at this
    · intro u g gen q hu2
      simp only [hx] at hu2
      split at hu2
      · cases hu2
      · exfalso; cases hpu : s.pc u <;> rw [hpu] at hu2 <;> cases hu2
    · intro u g gen hu2
      simp only [hx] at hu2
      split at hu2
      · cases hu2
      · have : s.pc u = .store g gen := by cases hpu : s.pc u <;> rw [hpu] at hu2 <;> cases hu2; rfl
        exact h4 u g gen this
  case store g gen hpc =>
    have e1 := hlast t g gen hpc
    have e2 := hlastLt t g (by rw [hpc]; simp [Pc.lastOf])
    subst e1
    simp only at hb hlim
    have hmod : (gen + 1) % M = gen + 1 := by
      apply Nat.mod_eq_of_lt; unfold M; omega
    have e := hu (.wake gen)
    rw [hpc, h1] at e
    simp only [Pc.waitsIn, Bool.false_eq_true, if_false] at e
    rw [hmod]
    have hpd := h4 t gen gen hpc
    refine ⟨?_, .inl (by simp only; omega), ?_, ?_⟩
    · simp only [joined_snoc]; simpa using e
    · intro u g gen' q hu2
      exact .inr ⟨t, gen, by simp⟩
    · intro u g gen2 hu2
      simp only [upd_apply] at hu2 ⊢
      split at hu2
      · cases hu2
      · rename_i hne
        have := h4 u g gen2 hu2
        have hg : g = gen := by omega
        subst hg
        exact absurd (hi.uniq u t g (by simp [hu2, Pc.lastOf]) (by simp [hpc, Pc.lastOf])) hne
  case leave g gen hpc haft =>
    have := hgen t g gen hpc
    obtain ⟨e1, e2⟩ := this
    subst e1
    simp only at hb hlim
    rw [haf gen (by omega) e2] at haft
    have a1 : gen ≠ s.round := by omega
    have a2 : gen ≠ s.seq := by omega
    refine live_pc hL ht ?_ ?_ ?_ ?_ ?_ ?_ ?_ <;> (try rw [hpc]) <;> simp [Pc.waitsIn, Pc.holdsIn, a1, a2]
  case futexSleep g gen q hpc hq =>
    subst hq
    refine live_pc hL ht ?_ ?_ ?_ ?_ ?_ ?_ ?_ <;> (try rw [hpc]) <;> simp [Pc.waitsIn, Pc.holdsIn]
  case call hpc =>
    refine live_pc hL ht ?_ ?_ ?_ ?_ ?_ ?_ ?_ <;> (try rw [hpc]) <;> simp [Pc.waitsIn, Pc.holdsIn]
  case load hpc =>
    refine live_pc hL ht ?_ ?_ ?_ ?_ ?_ ?_ ?_ <;> (try rw [hpc]) <;> simp [Pc.waitsIn, Pc.holdsIn]
  case casFail hpc =>
    refine live_pc hL ht ?_ ?_ ?_ ?_ ?_ ?_ ?_ <;> (try rw [hpc]) <;> simp [Pc.waitsIn, Pc.holdsIn]
  case stay hpc _ =>
    refine live_pc hL ht ?_ ?_ ?_ ?_ ?_ ?_ ?_ <;> (try rw [hpc]) <;> simp [Pc.waitsIn, Pc.holdsIn]
  case futexAgain hpc _ =>
    refine live_pc hL ht ?_ ?_ ?_ ?_ ?_ ?_ ?_ <;> (try rw [hpc]) <;> simp [Pc.waitsIn, Pc.holdsIn]
  case spurious hpc =>
    refine live_pc hL ht ?_ ?_ ?_ ?_ ?_ ?_ ?_ <;> (try rw [hpc]) <;> simp [Pc.waitsIn, Pc.holdsIn]

theorem live_run {c p : Nat} (hp : Params c p) {tr tr' : List (Tid × Lab)} {s s' : St} (hi : Inv c p tr s)
    (h : Live c tr s) (hr : Run (Sys c p) s tr' s') (hc : ∀ e, e ∈ tr' → e.1 < c) (hb : s'.round < roundLimit p) :
    Live c (tr ++ tr') s' := by
  induction hr generalizing tr with
  | nil => simpa using h
  | @cons s e s1 tr2 s2 hs hr' ih =>
    have hb1 := Nat.lt_of_le_of_lt (round_mono_run hr') hb
    have := ih (inv_step hp hi hs hb1) (live_step hp hi h (hc e (by simp)) hs hb1)
      (fun e he => hc e (by simp [he])) hb
    simpa using this

/-- **C39** (no lost wakeup): when the barrier is used by `c` threads (numbered below `c`), in every execution with
fewer than `roundLimit` rounds, if a thread sleeps in a round all `c` threads have joined, then the last thread of some
round is about to wake every sleeper.
Missing from the full property: barriers used by more than `c` threads (`barrier_backwards_violated`). -/
theorem barrier_no_lost_wakeup_partial {c p : Nat} (hp : Params c p) {s0 s : St} {tr : List (Tid × Lab)} (h0 : Init s0)
    (hr : Run (Sys c p) s0 tr s) (hc : ∀ e, e ∈ tr → e.1 < c) (hb : s.round < roundLimit p) {t : Tid} {g gen q : Nat}
    (ht : s.pc t = .sleep g gen q) (hg : joined tr g = c) :
    ∃ u g', (∃ gen', s.pc u = .store g' gen') ∨ s.pc u = .wake g' := by
  have hi := inv_run hp (inv_init hp _ h0) hr hb
  have hl := live_run hp (inv_init hp _ h0) (live_init c _ h0) hr hc hb
  simp only [List.nil_append] at hi hl
  rcases hl.sleepers t g gen q ht with h | ⟨u, g', h⟩
  · rcases hl.seq with h' | ⟨_, ⟨u, gen', hu⟩, _⟩
    · have := hi.genS t g gen q ht
      have hgr : g = s.round := by omega
      have := hi.word.2
      rw [← hgr] at this
      omega
    · exact ⟨u, _, .inl ⟨gen', hu⟩⟩
  · exact ⟨u, g', .inr h⟩

/-- **C39**: the last thread's wake step leaves no thread asleep. -/
theorem barrier_wakes {c p : Nat} {s s' : St} {t : Tid} {g : Nat} {l : Lab} (ht : s.pc t = .wake g)
    (hs : Sys c p s (t, l) s') : ∀ u g gen q, s'.pc u ≠ .sleep g gen q := by
  intro u g' gen q
  simp only [Sys] at hs
  cases hs <;> simp_all [upd_apply, wakeAll]
  split
  · simp
  · cases hpu : s.pc u <;> simp

/-! ### Executions -/

def start : St := ⟨0, 0, 0, fun _ => .out⟩

theorem start_init : Init start := ⟨rfl, rfl, rfl, fun _ => rfl⟩

theorem Sys.then {c p : Nat} {s s1 s' : St} {t : Tid} {l : Lab} {tr : List (Tid × Lab)} (h : Step c p t s l s1)
    (h' : Run (Sys c p) s1 tr s') : Run (Sys c p) s ((t, l) :: tr) s' := .cons (l := (t, l)) h h'

theorem Run.done {c p : Nat} {s s' : St} (h : s = s') : Run (Sys c p) s [] s' := h ▸ .nil _

example : Params 2 2 := ⟨by decide, by decide, 1, by decide⟩
example : Params 3 4 := ⟨by decide, by decide, 2, by decide⟩
example : roundLimit 4 = 2 ^ 30 := by decide

/-- The hypotheses of `barrier_rounds_partial`, `barrier_returns_joined` and `barrier_no_lost_wakeup_partial` are met:
two threads pass one round, the first having slept. -/
example : ∃ s tr, Run (Sys 2 2) start tr s ∧ s.round < roundLimit 2 ∧ (∀ e, e ∈ tr → e.1 < 2) ∧ joined tr 0 = 2 ∧
    returned tr 0 = 2 ∧ serials tr 0 = 1 ∧ ∀ t, s.pc t = .out := by
  refine ⟨_, _, Sys.then (t := 0) (.call rfl) <| Sys.then (t := 0) (.load rfl) <|
    Sys.then (t := 0) (.join (old := 0) rfl (by decide) rfl) <|
    Sys.then (t := 0) (.stay (g := 0) (gen := 0) rfl (by decide)) <|
    Sys.then (t := 0) (.futexSleep (g := 0) (gen := 0) (q := 0) rfl rfl) <|
    Sys.then (t := 1) (.call rfl) <| Sys.then (t := 1) (.load rfl) <|
    Sys.then (t := 1) (.joinLast (old := 1) rfl (by decide) rfl) <|
    Sys.then (t := 1) (.store (g := 0) (gen := 0) rfl) <|
    Sys.then (t := 1) (.wake (g := 0) rfl) <|
    Sys.then (t := 0) (.leave (g := 0) (gen := 0) rfl (by decide)) <| .nil _, ?_, ?_, ?_, ?_, ?_, ?_⟩
  · decide
  · decide
  · decide
  · decide
  · decide
  · intro t
    simp only [upd_apply, wakeAll, start]
    repeat (first | rfl | split)

/-- **C39** violated: on a barrier for two threads used by four, thread 3 can sleep for ever in round 1, which is full:
the last thread of round 0 was delayed before its store and set the sequence number back. All other threads have
returned. pthread.cpp L1104 -/
theorem barrier_backwards_violated : ∃ s tr, Run (Sys 2 2) start tr s ∧ joined tr 1 = 2 ∧
    (∃ gen q, s.pc 3 = .sleep 1 gen q) ∧ (∀ t, t ≠ 3 → s.pc t = .out) := by
  refine ⟨_, _, Sys.then (t := 1) (.call rfl) <| Sys.then (t := 1) (.load rfl) <|
    Sys.then (t := 1) (.join (old := 0) rfl (by decide) rfl) <|
    Sys.then (t := 2) (.call rfl) <| Sys.then (t := 2) (.load rfl) <|
    Sys.then (t := 2) (.joinLast (old := 1) rfl (by decide) rfl) <|
    Sys.then (t := 3) (.call rfl) <| Sys.then (t := 3) (.load rfl) <|
    Sys.then (t := 3) (.join (old := 2) rfl (by decide) rfl) <|
    Sys.then (t := 4) (.call rfl) <| Sys.then (t := 4) (.load rfl) <|
    Sys.then (t := 4) (.joinLast (old := 3) rfl (by decide) rfl) <|
    Sys.then (t := 4) (.store (g := 1) (gen := 1) rfl) <|
    Sys.then (t := 4) (.wake (g := 1) rfl) <|
    Sys.then (t := 1) (.leave (g := 0) (gen := 0) rfl (by decide)) <|
    Sys.then (t := 2) (.store (g := 0) (gen := 0) rfl) <|
    Sys.then (t := 2) (.wake (g := 0) rfl) <|
    Sys.then (t := 3) (.stay (g := 1) (gen := 1) rfl (by decide)) <|
    Sys.then (t := 3) (.futexSleep (g := 1) (gen := 1) (q := 1) rfl rfl) <| .nil _, ?_, ⟨1, 1, rfl⟩, ?_⟩
  · decide
  · intro t ht
    by_cases h1 : t = 1
    · subst h1; rfl
    by_cases h2 : t = 2
    · subst h2; rfl
    by_cases h4 : t = 4
    · subst h4; rfl
    simp [ht, h1, h2, h4, wakeAll, start]

/-! ### The generation number wraps -/

/-- Between round `r - 1` and round `r` of a barrier for three threads. -/
def between (r : Nat) : St :=
  ⟨(r % 2 ^ 30) * 4, if r = 0 then 0 else (r - 1) % 2 ^ 30 + 1, r, fun _ => .out⟩

theorem upd_upd_out (pc : Tid → Pc) (t : Tid) (x : Pc) (h : pc t = .out) : upd (upd pc t x) t .out = pc := by
  funext u; simp only [upd_apply]; split <;> simp_all

theorem one_round (r : Nat) : ∃ tr, Run (Sys 3 4) (between r) tr (between (r + 1)) := by
  have hg : r % 2 ^ 30 < 2 ^ 30 := Nat.mod_lt _ (by decide)
  refine ⟨_, Sys.then (t := 1) (.call rfl) <| Sys.then (t := 1) (.load rfl) <|
    Sys.then (t := 1) (.join (old := (r % 2 ^ 30) * 4) rfl (by omega) rfl) <|
    Sys.then (t := 2) (.call rfl) <| Sys.then (t := 2) (.load rfl) <|
    Sys.then (t := 2) (.join (old := ((r % 2 ^ 30) * 4 + 1) % M) rfl (by unfold M; omega) rfl) <|
    Sys.then (t := 3) (.call rfl) <| Sys.then (t := 3) (.load rfl) <|
    Sys.then (t := 3) (.joinLast (old := (((r % 2 ^ 30) * 4 + 1) % M + 1) % M) rfl (by unfold M; omega) rfl) <|
    Sys.then (t := 3) (.store (g := r) (gen := ((((r % 2 ^ 30) * 4 + 1) % M + 1) % M) / 4) rfl) <|
    Sys.then (t := 3) (.wake (g := r) rfl) <|
    Sys.then (t := 1) (.leave (g := r) (gen := ((r % 2 ^ 30) * 4) / 4) rfl (by simp only [after, M]; omega)) <|
    Sys.then (t := 2) (.leave (g := r) (gen := (((r % 2 ^ 30) * 4 + 1) % M) / 4) rfl (by simp only [after, M]; omega)) <|
    Run.done ?_⟩
  simp only [between, M]
  congr 1
  · omega
  · rw [if_neg (by omega)]; omega
  · funext t
    by_cases h1 : t = 1
    · subst h1; rfl
    by_cases h2 : t = 2
    · subst h2; rfl
    by_cases h3 : t = 3
    · subst h3; rfl
    simp [h1, h2, h3, wakeAll]

theorem Run.append {c p : Nat} {s s1 s' : St} {tr tr' : List (Tid × Lab)} (h : Run (Sys c p) s tr s1)
    (h' : Run (Sys c p) s1 tr' s') : Run (Sys c p) s (tr ++ tr') s' := by
  induction h with
  | nil => exact h'
  | cons hs _ ih => exact .cons hs (ih h')

theorem between_reach (r : Nat) : ∃ tr, Run (Sys 3 4) start tr (between r) := by
  induction r with
  | zero => exact ⟨[], Run.done rfl⟩
  | succ r ih =>
    obtain ⟨tr, h⟩ := ih
    obtain ⟨tr', h'⟩ := one_round r
    exact ⟨tr ++ tr', Run.append h h'⟩

/-- **C39** violated: after 2^30 rounds of a barrier for three threads, with no thread inside, one thread alone joins
the next round and returns. The generation in `waiting` has wrapped to 0 while the sequence number is 2^30.
pthread.cpp L1099-1116 -/
theorem barrier_wrap_violated : ∃ s tr s' g, Run (Sys 3 4) start tr s ∧ (∀ t, s.pc t = .out) ∧
    Run (Sys 3 4) s [(1, .call), (1, .tau), (1, .join g), (1, .ret g false)] s' := by
  obtain ⟨tr, h⟩ := between_reach (2 ^ 30)
  have hw : (between (2 ^ 30)).waiting = 0 := by decide
  have hq : (between (2 ^ 30)).seq = 2 ^ 30 := by decide
  refine ⟨between (2 ^ 30), tr, _, 2 ^ 30, h, fun _ => rfl, Sys.then (t := 1) (.call rfl) <|
    Sys.then (t := 1) (.load rfl) <|
    Sys.then (t := 1) (.join (old := (between (2 ^ 30)).waiting) rfl (by simp only [hw]; decide) rfl) <|
    Sys.then (t := 1) (.leave (g := 2 ^ 30) (gen := (between (2 ^ 30)).waiting / 4) rfl
      (by simp only [hw, hq]; decide)) <| .nil _⟩

end Mlibc.Conc.Barrier
