import Verif.Base

/-!
# The rings of asynchronous input and output

Submission and completion of requests: sysdeps/linux/generic/posix/aio.cpp L146-175 (`enqueue`), L476-498 (`drainQueue`) and L366-391
(`handle_completions`), on the two rings that are shared with the kernel.  Requests and completions are numbers.  The kernel's side of
the rings is modelled as io_uring documents it.
-/

namespace Mlibc.AioRing

/-! ## Submission -/

/-- L111-118: the submission ring; the counters are `unsigned`. -/
structure SQ where
  head : Nat
  tail : Nat
  sqes : List Nat
  array : List Nat

/-- The kernel takes `p` entries from the submission ring. -/
def consume : Nat → SQ → Res (SQ × List Nat)
  | 0, s => .ok (s, [])
  | p + 1, s =>
    match s.array[s.head % s.sqes.length]? with
    | none => .ub
    | some i => match s.sqes[i]? with
      | none => .ub
      | some r => (consume p { s with head := (s.head + 1) % 2 ^ 32 }).bind fun q => .ok (q.1, r :: q.2)

/-- L248-255, `enter`: it fails, or the kernel takes up to `n` entries. -/
def enter (s : SQ) (n : Nat) (fail : Bool) : Option (Res (SQ × List Nat)) :=
  if fail then none else some (consume (min n ((s.tail + 2 ^ 32 - s.head) % 2 ^ 32)) s)

/-- L162-174: an entry is filled and submitted; a failure ends the process (L496). -/
def push (s : SQ) (req : Nat) (fail : Bool) : Res (SQ × List Nat) :=
  let index := s.tail &&& (s.sqes.length - 1)                                     -- L162-163
  if index < s.sqes.length ∧ index < s.array.length then
    let s := { s with sqes := s.sqes.set index req }                              -- L166-169
    let s := { s with array := s.array.set index index, tail := (s.tail + 1) % 2 ^ 32 }   -- L171-172
    match enter s 1 fail with                                                     -- L174
    | none => .panic
    | some r => r
  else .ub

/-- L147-175; the result is what the kernel has taken. -/
def enqueue (s : SQ) (req : Nat) (fail0 fail1 : Bool) : Res (SQ × List Nat) :=
  if (s.tail + 2 ^ 32 - s.head) % 2 ^ 32 ≥ s.sqes.length then                     -- L155-156
    match enter s 0 fail0 with                                                    -- L157-159
    | none => .panic
    | some r => r.bind fun r => (push r.1 req fail1).bind fun q => .ok (q.1, r.2 ++ q.2)
  else push s req fail1

/-- L476-498: the requests that are waiting, each with the failures that its calls meet. -/
def drainQueue (s : SQ) : List (Nat × Bool × Bool) → Res (SQ × List Nat)
  | [] => .ok (s, [])
  | (req, f0, f1) :: rest => (enqueue s req f0 f1).bind fun r => (drainQueue r.1 rest).bind fun q => .ok (q.1, r.2 ++ q.2)

/-! ## Completion -/

/-- L121-127: the completion ring; `log` is all that the kernel has ever put into it. -/
structure CQ where
  head : Nat
  tail : Nat
  cqes : List Nat
  log : List Nat

/-- The kernel adds a completion if there is room (it keeps the others for later). -/
def post1 (c : CQ) (v : Nat) : CQ :=
  if (c.tail + 2 ^ 32 - c.head) % 2 ^ 32 < c.cqes.length then
    ⟨c.head, (c.tail + 1) % 2 ^ 32, c.cqes.set (c.tail % c.cqes.length) v, c.log ++ [v]⟩
  else c

def post (c : CQ) (vs : List Nat) : CQ := vs.foldl post1 c

/-- L378-387, at most `fuel` rounds: what is handled, and the head, which is not yet stored.  The kernel adds completions after each entry,
    here `posts fuel`.  The handler of L500-506 never stops early. -/
def inner (posts : Nat → List Nat) : Nat → CQ → Nat → Nat → Res (CQ × List Nat × Nat)
  | 0, _, _, _ => .ub
  | fuel + 1, c, head, tail =>
    if head ≠ tail then
      match c.cqes[head &&& (c.cqes.length - 1)]? with                            -- L379
      | none => .ub
      | some v => (inner posts fuel (post c (posts fuel)) ((head + 1) % 2 ^ 32) tail).bind fun r =>
        .ok (r.1, v :: r.2.1, r.2.2)                                              -- L380-381
    else .ok (c, [], head)

/-- L371-389, one round of the outer loop: what is handled.  A round that finds nothing ends the call (L375-376); the next call begins
    with another round.  Simplification: memory is sequentially consistent (the code reads the tail without acquire, L373). -/
def round (posts : Nat → List Nat) (c : CQ) : Res (CQ × List Nat) :=
  (inner posts (c.cqes.length + 1) c c.head c.tail).bind fun r => .ok ({ r.1 with head := r.2.2 }, r.2.1)

/-- A history: completions arrive, and a round looks at them, while others arrive. -/
def rounds (c : CQ) : List (List Nat × (Nat → List Nat)) → Res (CQ × List Nat)
  | [] => .ok (c, [])
  | b :: bs => (round b.2 (post c b.1)).bind fun r => (rounds r.1 bs).bind fun q => .ok (q.1, r.2 ++ q.2)

/-! ## Theorems -/

/-- Rings as they are set up, and between calls: all is taken; the size is a power of two; the counters may be any. -/
def SQ.Idle (s : SQ) (k : Nat) : Prop := s.head = s.tail ∧ s.tail < 2 ^ 32 ∧ s.sqes.length = 2 ^ k ∧ s.array.length = 2 ^ k

def CQ.Idle (c : CQ) (k : Nat) : Prop := c.head = c.tail ∧ c.tail < 2 ^ 32 ∧ c.cqes.length = 2 ^ k ∧ c.log = []

theorem and_mask (x k : Nat) : x &&& (2 ^ k - 1) = x % 2 ^ k := Nat.and_two_pow_sub_one_eq_mod x k

theorem enqueue_idle (s : SQ) (k req : Nat) (f0 f1 : Bool) (h : s.Idle k) :
    (f1 = true ∧ enqueue s req f0 f1 = .panic) ∨ (f1 = false ∧ ∃ s', enqueue s req f0 f1 = .ok (s', [req]) ∧ s'.Idle k) := by
  obtain ⟨head, tail, sqes, array⟩ := s
  obtain ⟨h1, h2, h3, h4⟩ := h
  dsimp only at h1 h2 h3 h4
  subst h1
  have hp : 0 < 2 ^ k := Nat.pow_pos (by omega)
  have hlt : head % 2 ^ k < 2 ^ k := Nat.mod_lt _ hp
  have hfull : ¬ ((head + 2 ^ 32 - head) % 2 ^ 32 ≥ sqes.length) := by
    rw [h3]; have : (head + 2 ^ 32 - head) % 2 ^ 32 = 0 := by omega
    omega
  unfold enqueue
  dsimp only
  rw [if_neg hfull]
  unfold push
  dsimp only
  rw [h3, and_mask, if_pos ⟨hlt, by omega⟩]
  unfold enter
  cases f1 with
  | true => exact Or.inl ⟨rfl, rfl⟩
  | false =>
    refine Or.inr ⟨rfl, ?_⟩
    dsimp only
    have hone : ((head + 1) % 2 ^ 32 + 2 ^ 32 - head) % 2 ^ 32 = 1 := by omega
    have ha : (array.set (head % 2 ^ k) (head % 2 ^ k))[head % 2 ^ k]? = some (head % 2 ^ k) := by
      rw [List.getElem?_set_self (by omega)]
    have hs : (sqes.set (head % 2 ^ k) req)[head % 2 ^ k]? = some req := by
      rw [List.getElem?_set_self (by omega)]
    simp only [hone, Nat.min_self, consume, List.length_set, h3, ha, hs, Res.bind, Bool.false_eq_true, if_false]
    refine ⟨_, rfl, rfl, by dsimp only; omega, by simp [h3], by simp [h4]⟩

/-- **C141.** From idle rings of any size with any counters, also where these wrap around, every request that is waiting is given to the
    kernel exactly once and in order, or the process ends, which happens exactly if a submission fails; no entry outside of
    the rings is used. -/
theorem drainQueue_submits (k : Nat) (reqs : List (Nat × Bool × Bool)) : ∀ s : SQ, s.Idle k →
    ((∃ r ∈ reqs, r.2.2 = true) ∧ drainQueue s reqs = .panic) ∨
    ((∀ r ∈ reqs, r.2.2 = false) ∧ ∃ s', drainQueue s reqs = .ok (s', reqs.map (·.1)) ∧ s'.Idle k) := by
  induction reqs with
  | nil => intro s h; exact Or.inr ⟨by simp, s, rfl, h⟩
  | cons r rest ih =>
    intro s h
    obtain ⟨req, f0, f1⟩ := r
    unfold drainQueue
    rcases enqueue_idle s k req f0 f1 h with ⟨hf, he⟩ | ⟨hf, s', he, hi⟩
    · rw [he]
      exact Or.inl ⟨⟨_, List.mem_cons_self, hf⟩, rfl⟩
    · rw [he]
      simp only [Res.bind]
      rcases ih s' hi with ⟨⟨r, hr, hr2⟩, hp⟩ | ⟨hall, s2, hd, hi2⟩
      · rw [hp]
        exact Or.inl ⟨⟨r, List.mem_cons_of_mem _ hr, hr2⟩, rfl⟩
      · rw [hd]
        refine Or.inr ⟨?_, s2, rfl, hi2⟩
        intro x hx
        rcases List.mem_cons.mp hx with rfl | hx
        · exact hf
        · exact hall x hx

theorem mod_two (x k : Nat) (hk : k ≤ 32) : x % 2 ^ 32 % 2 ^ k = x % 2 ^ k :=
  Nat.mod_mod_of_dvd x (Nat.pow_dvd_pow 2 hk)

theorem mod_differ (n H i j : Nat) (hij : i < j) (hj : j < n) : (H + i) % n ≠ (H + j) % n := by
  intro h
  have h1 := Nat.sub_mod_eq_zero_of_mod_eq h.symm
  have h2 : H + j - (H + i) = j - i := by omega
  rw [h2, Nat.mod_eq_of_lt (by omega)] at h1
  omega

/-- The completions behind position `H` of the stream are in the ring. -/
def Holds (cqes : List Nat) (n H : Nat) (vs : List Nat) : Prop := ∀ i, i < vs.length → cqes[(H + i) % n]? = vs[i]?

/-- The ring holds `rem`, which is not yet handled, from position `H` of the stream. -/
structure WF (k : Nat) (c : CQ) (H : Nat) (rem : List Nat) : Prop where
  len : c.cqes.length = 2 ^ k
  head : c.head = H % 2 ^ 32
  tail : c.tail = (H + rem.length) % 2 ^ 32
  room : rem.length ≤ 2 ^ k
  holds : Holds c.cqes (2 ^ k) H rem

theorem post1_wf (k : Nat) (hk : k < 32) (c : CQ) (H : Nat) (rem : List Nat) (h : WF k c H rem) (v : Nat) :
    (rem.length < 2 ^ k ∧ WF k (post1 c v) H (rem ++ [v]) ∧ (post1 c v).log = c.log ++ [v]) ∨ (rem.length = 2 ^ k ∧ post1 c v = c) := by
  obtain ⟨h1, h2, h3, h4, h5⟩ := h
  have hpk : 2 ^ k < 2 ^ 32 := Nat.pow_lt_pow_right (by omega) hk
  have hd : (c.tail + 2 ^ 32 - c.head) % 2 ^ 32 = rem.length := by rw [h2, h3]; omega
  unfold post1
  rw [hd, h1]
  by_cases hr : rem.length < 2 ^ k
  · rw [if_pos hr]
    refine Or.inl ⟨hr, ⟨by simp [h1], h2, ?_, by simp; omega, ?_⟩, rfl⟩
    · dsimp only; rw [h3]; simp only [List.length_append, List.length_cons, List.length_nil]; omega
    · intro i hi
      dsimp only
      rw [h3, mod_two _ _ (by omega)]
      simp only [List.length_append, List.length_cons, List.length_nil, Nat.zero_add] at hi
      by_cases he : i = rem.length
      · subst he
        rw [List.getElem?_set_self (by rw [h1]; exact Nat.mod_lt _ (Nat.pow_pos (by omega)))]
        simp
      · have hlt : i < rem.length := by omega
        rw [List.getElem?_set_ne (fun e => mod_differ (2 ^ k) H i rem.length hlt (by omega) e.symm), h5 i hlt,
          List.getElem?_append_left hlt]
  · rw [if_neg hr]
    exact Or.inr ⟨by omega, rfl⟩

theorem post_wf (k : Nat) (hk : k < 32) (vs : List Nat) : ∀ (c : CQ) (H : Nat) (rem : List Nat), WF k c H rem →
    ∃ ext, WF k (post c vs) H (rem ++ ext) ∧ (post c vs).log = c.log ++ ext ∧ (rem.length + vs.length ≤ 2 ^ k → ext = vs) := by
  induction vs with
  | nil => intro c H rem h; exact ⟨[], by simpa [post] using h, by simp [post], fun _ => rfl⟩
  | cons v vs ih =>
    intro c H rem h
    have hp : post c (v :: vs) = post (post1 c v) vs := rfl
    rw [hp]
    rcases post1_wf k hk c H rem h v with ⟨_, hw, hl⟩ | ⟨hr, he⟩
    · obtain ⟨ext, e1, e2, e3⟩ := ih (post1 c v) H (rem ++ [v]) hw
      refine ⟨v :: ext, by simpa using e1, by rw [e2, hl]; simp, ?_⟩
      intro hle
      rw [e3 (by simp only [List.length_append, List.length_cons, List.length_nil] at hle ⊢; omega)]
    · rw [he]
      obtain ⟨ext, e1, e2, _⟩ := ih c H rem h
      refine ⟨ext, e1, e2, ?_⟩
      intro hle
      simp only [List.length_cons] at hle
      omega

theorem inner_handles (k : Nat) (hk : k < 32) (posts : Nat → List Nat) (todo : List Nat) :
    ∀ (c : CQ) (H j fuel : Nat) (rem : List Nat), WF k c H rem → (∀ i, i < todo.length → rem[j + i]? = todo[i]?) →
    j + todo.length ≤ rem.length → todo.length < fuel →
    ∃ c' ext, inner posts fuel c ((H + j) % 2 ^ 32) ((H + j + todo.length) % 2 ^ 32) = .ok (c', todo, (H + j + todo.length) % 2 ^ 32) ∧
      WF k c' H (rem ++ ext) ∧ c'.log = c.log ++ ext ∧ ((∀ i, posts i = []) → ext = []) := by
  have hpk : 2 ^ k < 2 ^ 32 := Nat.pow_lt_pow_right (by omega) hk
  induction todo with
  | nil =>
    intro c H j fuel rem h _ _ hf
    obtain ⟨f, rfl⟩ : ∃ f, fuel = f + 1 := ⟨fuel - 1, by simp at hf; omega⟩
    exact ⟨c, [], by simp [inner], by simpa using h, by simp, fun _ => rfl⟩
  | cons v vs ih =>
    intro c H j fuel rem h ht hl hf
    simp only [List.length_cons] at hl hf
    obtain ⟨f, rfl⟩ : ∃ f, fuel = f + 1 := ⟨fuel - 1, by omega⟩
    have hroom := h.room
    have hne : (H + j) % 2 ^ 32 ≠ (H + j + (v :: vs).length) % 2 ^ 32 := by simp only [List.length_cons]; omega
    have h0 : c.cqes[(H + j) % 2 ^ k]? = some v := by
      rw [h.holds j (by omega)]
      simpa using ht 0 (by simp)
    obtain ⟨ext1, w1, w2, w3⟩ := post_wf k hk (posts f) c H rem h
    obtain ⟨c', ext2, i1, i2, i3, i4⟩ := ih (post c (posts f)) H (j + 1) f (rem ++ ext1) w1 (by
      intro i hi
      have := ht (i + 1) (by simp; omega)
      rw [List.getElem?_append_left (by omega), show j + 1 + i = j + (i + 1) by omega, this]
      simp) (by rw [List.length_append]; omega) (by omega)
    have e1 : ((H + j) % 2 ^ 32 + 1) % 2 ^ 32 = (H + (j + 1)) % 2 ^ 32 := by omega
    have e2 : H + j + (v :: vs).length = H + (j + 1) + vs.length := by simp only [List.length_cons]; omega
    refine ⟨c', ext1 ++ ext2, ?_, by rw [← List.append_assoc]; exact i2, by rw [i3, w2, List.append_assoc], ?_⟩
    · unfold inner
      rw [if_pos hne, h.len, and_mask, mod_two _ _ (by omega), h0]
      simp only
      rw [e1, e2, i1]
      rfl
    · intro hp
      rw [i4 hp, w3 (by rw [hp f]; simpa using hroom), hp f]; rfl

theorem round_handles (k : Nat) (hk : k < 32) (posts : Nat → List Nat) (c : CQ) (H : Nat) (rem : List Nat) (h : WF k c H rem) :
    ∃ c' ext, round posts c = .ok (c', rem) ∧ WF k c' (H + rem.length) ext ∧ c'.log = c.log ++ ext ∧
      ((∀ i, posts i = []) → ext = []) := by
  have hroom := h.room
  obtain ⟨c', ext, i1, i2, i3, i4⟩ := inner_handles k hk posts rem c H 0 (2 ^ k + 1) rem h (by intro i _; rw [Nat.zero_add]) (by omega)
    (by omega)
  rw [show H + 0 = H from rfl] at i1
  unfold round
  rw [h.len, h.head, h.tail, i1]
  refine ⟨_, ext, rfl, ⟨i2.len, rfl, ?_, ?_, ?_⟩, i3, i4⟩
  · dsimp only; rw [i2.tail, List.length_append, Nat.add_assoc]
  · have := i2.room; rw [List.length_append] at this; omega
  · intro i hi
    have := i2.holds (rem.length + i) (by rw [List.length_append]; omega)
    rw [List.getElem?_append_right (by omega), Nat.add_sub_cancel_left, ← Nat.add_assoc] at this
    exact this

theorem rounds_handle (k : Nat) (hk : k < 32) (bs : List (List Nat × (Nat → List Nat))) : ∀ (c : CQ) (H : Nat) (rem pre : List Nat),
    WF k c H rem → c.log = pre ++ rem → ∃ c' handled H' rem', rounds c bs = .ok (c', handled) ∧ WF k c' H' rem' ∧
      c'.log = pre ++ handled ++ rem' := by
  induction bs with
  | nil => intro c H rem pre h hl; exact ⟨c, [], H, rem, rfl, h, by simpa using hl⟩
  | cons b bs ih =>
    intro c H rem pre h hl
    obtain ⟨ext, p1, p2, _⟩ := post_wf k hk b.1 c H rem h
    obtain ⟨c1, ext1, r1, r2, r3, _⟩ := round_handles k hk b.2 (post c b.1) H (rem ++ ext) p1
    obtain ⟨c', handled, H', rem', i1, i2, i3⟩ := ih c1 _ ext1 (pre ++ (rem ++ ext)) r2 (by rw [r3, p2, hl]; simp)
    refine ⟨c', (rem ++ ext) ++ handled, H', rem', ?_, i2, by rw [i3]; simp⟩
    unfold rounds
    rw [r1]
    simp only [Res.bind]
    rw [i1]

theorem idle_wf (k : Nat) (c : CQ) (h : c.Idle k) : WF k c c.tail [] :=
  ⟨h.2.2.1, by rw [h.1, Nat.mod_eq_of_lt h.2.1], by simp [Nat.mod_eq_of_lt h.2.1], by simp, by intro i hi; simp at hi⟩

/-- **C141.** Whatever completions the kernel puts into the ring, before the rounds and in the middle of them, and wherever the counters wrap
    around: what is handled, followed by what is still in the ring, is all that was put into it, each exactly once and in order;
    when the ring is found empty, all was handled. -/
theorem completions_handled (k : Nat) (hk : k < 32) (history : List (List Nat × (Nat → List Nat))) (c : CQ) (h : c.Idle k) :
    ∃ c' handled rem, rounds c history = .ok (c', handled) ∧ c'.log = handled ++ rem ∧ (c'.head = c'.tail ↔ rem = []) := by
  have hpk : 2 ^ k < 2 ^ 32 := Nat.pow_lt_pow_right (by omega) hk
  obtain ⟨c', handled, H', rem', i1, i2, i3⟩ := rounds_handle k hk history c c.tail [] [] (idle_wf k c h) (by rw [h.2.2.2]; rfl)
  refine ⟨c', handled, rem', i1, by simpa using i3, ?_⟩
  have := i2.room
  rw [i2.head, i2.tail, ← List.length_eq_zero_iff]
  omega

/-- **C141.** Completions that fit are put into an empty ring, and one round handles exactly these. -/
theorem completions_fit (k : Nat) (hk : k < 32) (vs : List Nat) (hv : vs.length ≤ 2 ^ k) (c : CQ) (h : c.Idle k) :
    ∃ c', round (fun _ => []) (post c vs) = .ok (c', vs) ∧ c'.head = c'.tail := by
  obtain ⟨ext, p1, _, p3⟩ := post_wf k hk vs c c.tail [] (idle_wf k c h)
  rw [p3 (by simpa using hv), List.nil_append] at p1
  obtain ⟨c', ext1, r1, r2, _, r4⟩ := round_handles k hk (fun _ => []) (post c vs) c.tail vs p1
  refine ⟨c', r1, ?_⟩
  rw [r2.head, r2.tail, r4 (fun _ => rfl)]
  simp

/-- Counters about to wrap around, a ring of four. -/
example : SQ.Idle ⟨4294967295, 4294967295, [0, 0, 0, 0], [0, 0, 0, 0]⟩ 2 ∧ CQ.Idle ⟨4294967294, 4294967294, [0, 0, 0, 0], []⟩ 2 :=
  ⟨⟨rfl, by decide, rfl, rfl⟩, ⟨rfl, by decide, rfl, rfl⟩⟩

example : (drainQueue ⟨4294967295, 4294967295, [0, 0, 0, 0], [0, 0, 0, 0]⟩ [(7, false, false), (8, false, false)]).bind
    (fun r => .ok r.2) = .ok [7, 8] := by decide

/-- Three completions, and a fourth and a fifth in the middle of the round: one finds room then; the next round handles it. -/
example : (rounds ⟨4294967294, 4294967294, [0, 0, 0, 0], []⟩ [([1, 2, 3], fun i => if i = 3 then [4, 5] else []), ([], fun _ => [])]).bind
    (fun r => .ok (r.2, r.1.log)) = .ok ([1, 2, 3, 4], [1, 2, 3, 4]) := by decide

end Mlibc.AioRing
