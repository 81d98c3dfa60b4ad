import Verif.MemFns.Model
/- Helper lemmas for the memory functions (not property statements). -/
namespace Mlibc.MemFns
open Mlibc Mem

/-- The `n` bytes at `a` (0 where not accessible; only used under `Valid`). -/
def bytes (m : Mem) (a : Nat) : Nat → List UInt8
  | 0 => []
  | n + 1 => (m a).getD 0 :: bytes m (a + 1) n

@[simp] theorem length_bytes (m : Mem) (a n : Nat) : (bytes m a n).length = n := by
  induction n generalizing a with
  | zero => rfl
  | succ n ih => simp [bytes, ih]

theorem bytes_add (m : Mem) (a j k : Nat) : bytes m a (j + k) = bytes m a j ++ bytes m (a + j) k := by
  induction j generalizing a with
  | zero => simp [bytes]
  | succ j ih => rw [show j + 1 + k = (j + k) + 1 by omega]; simp [bytes, ih, Nat.add_assoc, Nat.add_comm 1]

theorem bytes_congr {m m' : Mem} {a n : Nat} (h : ∀ i, i < n → m (a + i) = m' (a + i)) :
    bytes m a n = bytes m' a n := by
  induction n generalizing a with
  | zero => rfl
  | succ n ih =>
    simp only [bytes]
    rw [show m a = m' a by simpa using h 0 (by omega)]
    rw [ih]
    intro i hi
    have := h (i + 1) (by omega)
    simpa [Nat.add_assoc, Nat.add_comm 1] using this

theorem getElem?_bytes {m : Mem} {a n i : Nat} (hv : m.Valid a n) (h : i < n) :
    (bytes m a n)[i]? = m (a + i) := by
  induction n generalizing a i with
  | zero => omega
  | succ n ih =>
    cases i with
    | zero =>
      have := hv 0 (by omega)
      simp only [Nat.add_zero] at *
      obtain ⟨b, hb⟩ := Option.isSome_iff_exists.1 this
      simp [bytes, hb]
    | succ i =>
      simp only [bytes, List.getElem?_cons_succ]
      rw [ih (by simpa using hv.shift (k := 1) (by omega)) (by omega)]
      congr 1; omega

theorem loadN_bytes {m : Mem} {a n : Nat} (hv : m.Valid a n) : m.loadN a n = .ok (bytes m a n) := by
  induction n generalizing a with
  | zero => rfl
  | succ n ih =>
    have := hv 0 (by omega)
    simp only [Nat.add_zero] at this
    obtain ⟨b, hb⟩ := Option.isSome_iff_exists.1 this
    have h1 : m.Valid (a + 1) n := by simpa using hv.shift (k := 1) (by omega)
    simp [loadN, load, hb, ih h1, bytes]

theorem patch_congr_lists {m : Mem} {a : Nat} {xs ys : List UInt8} (h : xs = ys) :
    m.patch a xs = m.patch a ys := by rw [h]

theorem loadWords_ok {m : Mem} {src size cnt : Nat} (h : m.Valid src (size * cnt)) :
    ∃ ws, loadWords m src size cnt = .ok ws ∧ ws.length = cnt ∧ (∀ w ∈ ws, w.length = size) ∧
      ws.flatten = bytes m src (size * cnt) := by
  induction cnt generalizing src with
  | zero => exact ⟨[], rfl, rfl, by simp, by simp [bytes]⟩
  | succ cnt ih =>
    have hm : size * (cnt + 1) = size + size * cnt := by rw [Nat.mul_succ]; omega
    rw [hm] at h
    have h1 : m.Valid src size := h.mono (by omega)
    have h2 : m.Valid (src + size) (size * cnt) := by simpa using h.shift (k := size) (by omega)
    obtain ⟨ws, e, hl, hw, hf⟩ := ih h2
    refine ⟨bytes m src size :: ws, ?_, by simp [hl], ?_, ?_⟩
    · simp [loadWords, loadN_bytes h1, e]
    · intro w hmem
      rcases List.mem_cons.1 hmem with rfl | hmem
      · simp
      · exact hw w hmem
    · rw [List.flatten_cons, hf, hm, bytes_add]

theorem storeWords_ok {m : Mem} {dest size : Nat} {ws : List (List UInt8)}
    (hw : ∀ w ∈ ws, w.length = size) (h : m.Valid dest (size * ws.length)) :
    storeWords m dest size ws = .ok (m.patch dest ws.flatten) := by
  induction ws generalizing m dest with
  | nil => simp [storeWords, patch_nil]
  | cons w ws ih =>
    have hwl := hw w (by simp)
    have hm : size * (w :: ws).length = size + size * ws.length := by
      simp [Nat.mul_succ]; omega
    rw [hm] at h
    have h1 : m.Valid dest w.length := h.mono (by omega)
    simp only [storeWords, storeN_ok h1, Res.ok_bind, List.flatten_cons]
    rw [ih (fun w' h' => hw w' (List.mem_cons_of_mem _ h'))]
    · rw [← hwl, patch_append]
    · exact Valid.patch (by simpa using h.shift (k := size) (by omega))

theorem copyBlock_ok {m : Mem} {dest src size cnt : Nat}
    (hs : m.Valid src (size * cnt)) (hd : m.Valid dest (size * cnt)) :
    copyBlock m dest src size cnt = .ok (m.patch dest (bytes m src (size * cnt))) := by
  obtain ⟨ws, e, hl, hw, hf⟩ := loadWords_ok hs
  simp only [copyBlock, e, Res.ok_bind]
  rw [storeWords_ok hw (by rw [hl]; exact hd), hf]

/-- The state of forward_copy after `k` of `N` bytes. -/
structure Progress (m0 : Mem) (d0 s0 N : Nat) (k : Nat) (st : Mem × Nat × Nat × Nat) : Prop where
  le : k ≤ N
  mem : st.1 = m0.patch d0 (bytes m0 s0 k)
  dest : st.2.1 = d0 + k
  src : st.2.2.1 = s0 + k
  n : st.2.2.2 = N - k

/-- The relative position for which copying upwards is safe. -/
def FwdSafe (d s n : Nat) : Prop := d < s ∨ s + n ≤ d

theorem bytes_patch_fwd {m0 : Mem} {d0 s0 N k c : Nat} (hf : FwdSafe d0 s0 N) (hkc : k + c ≤ N) :
    bytes (m0.patch d0 (bytes m0 s0 k)) (s0 + k) c = bytes m0 (s0 + k) c := by
  apply bytes_congr
  intro i hi
  unfold FwdSafe at hf
  simp only [Mem.patch, length_bytes]
  rw [if_neg (by omega)]

theorem copyBlock_progress {m0 : Mem} {d0 s0 N k size cnt : Nat} {st : Mem × Nat × Nat × Nat}
    (hs : m0.Valid s0 N) (hd : m0.Valid d0 N) (hf : FwdSafe d0 s0 N)
    (hp : Progress m0 d0 s0 N k st) (hge : st.2.2.2 ≥ size * cnt) :
    ∃ m', copyBlock st.1 st.2.1 st.2.2.1 size cnt = .ok m' ∧
      Progress m0 d0 s0 N (k + size * cnt)
        (m', st.2.1 + size * cnt, st.2.2.1 + size * cnt, st.2.2.2 - size * cnt) := by
  obtain ⟨hle, hm, hde, hsr, hn⟩ := hp
  have hkc : k + size * cnt ≤ N := by omega
  have hb : copyBlock st.1 st.2.1 st.2.2.1 size cnt = .ok ((m0.patch d0 (bytes m0 s0 k)).patch
      (d0 + k) (bytes (m0.patch d0 (bytes m0 s0 k)) (s0 + k) (size * cnt))) := by
    rw [hm, hde, hsr]
    apply copyBlock_ok
    · exact Valid.patch ((hs.shift (k := k) hle).mono (by omega))
    · exact Valid.patch ((hd.shift (k := k) hle).mono (by omega))
  refine ⟨_, hb, hkc, ?_, by simp only; omega, by simp only; omega, by simp only; omega⟩
  · simp only
    rw [bytes_patch_fwd hf hkc, bytes_add, ← patch_append]
    simp

theorem copyIf_progress {m0 : Mem} {d0 s0 N k : Nat} (size cnt : Nat) {st : Mem × Nat × Nat × Nat}
    (hs : m0.Valid s0 N) (hd : m0.Valid d0 N) (hf : FwdSafe d0 s0 N)
    (hp : Progress m0 d0 s0 N k st) :
    ∃ k' st', copyIf size cnt st = .ok st' ∧ Progress m0 d0 s0 N k' st' ∧
      (∀ b, st.2.2.2 < 2 * b → b = size * cnt → st'.2.2.2 < b) := by
  obtain ⟨m, d, s, n⟩ := st
  unfold copyIf
  by_cases hge : n ≥ size * cnt
  · obtain ⟨m', e, hp'⟩ := copyBlock_progress hs hd hf hp hge
    refine ⟨_, _, ?_, hp', ?_⟩
    · simp only [hge, if_true]; simp only at e; simp [e]
    · intro b h1 h2; simp only at *; omega
  · refine ⟨k, _, ?_, hp, ?_⟩
    · simp [hge]
    · intro b h1 h2; simp only at *; omega

theorem copyLoop_progress {m0 : Mem} {d0 s0 N : Nat}
    (hs : m0.Valid s0 N) (hd : m0.Valid d0 N) (hf : FwdSafe d0 s0 N) :
    ∀ (m : Mem) (d s n k : Nat), Progress m0 d0 s0 N k (m, d, s, n) →
    ∃ k' st', copyLoop m d s n = .ok st' ∧ Progress m0 d0 s0 N k' st' ∧ st'.2.2.2 < 64 := by
  intro m d s n
  induction n using Nat.strongRecOn generalizing m d s with
  | ind n ih =>
    intro k hp
    by_cases hge : n ≥ 64
    · obtain ⟨m', e, hp'⟩ := copyBlock_progress (size := 8) (cnt := 8) hs hd hf hp hge
      obtain ⟨k', st', e', hp'', hlt⟩ := ih (n - 64) (by omega) _ _ _ _ hp'
      refine ⟨k', st', ?_, hp'', hlt⟩
      rw [copyLoop]
      simp only at e
      simp only [hge, if_true, e, Res.ok_bind]
      exact e'
    · exact ⟨k, _, by rw [copyLoop]; simp [hge], hp, by simp only; omega⟩

theorem forwardCopy_ok {m : Mem} {d s n : Nat} (hs : m.Valid s n) (hd : m.Valid d n)
    (hf : FwdSafe d s n) : forwardCopy m d s n = .ok (d, m.patch d (bytes m s n)) := by
  have h0 : Progress m d s n 0 (m, d, s, n) :=
    ⟨by omega, by simp [bytes, patch_nil], rfl, rfl, rfl⟩
  obtain ⟨k1, s1, e1, p1, l1⟩ := copyLoop_progress hs hd hf m d s n 0 h0
  obtain ⟨k2, s2, e2, p2, l2⟩ := copyIf_progress 8 4 hs hd hf p1
  have l2 := l2 32 l1 rfl
  obtain ⟨k3, s3, e3, p3, l3⟩ := copyIf_progress 8 2 hs hd hf p2
  have l3 := l3 16 l2 rfl
  obtain ⟨k4, s4, e4, p4, l4⟩ := copyIf_progress 8 1 hs hd hf p3
  have l4 := l4 8 l3 rfl
  obtain ⟨k5, s5, e5, p5, l5⟩ := copyIf_progress 4 1 hs hd hf p4
  have l5 := l5 4 l4 rfl
  obtain ⟨k6, s6, e6, p6, l6⟩ := copyIf_progress 2 1 hs hd hf p5
  have l6 := l6 2 l5 rfl
  simp only [forwardCopy, e1, e2, e3, e4, e5, e6, Res.ok_bind]
  obtain ⟨m', d', s', n'⟩ := s6
  by_cases hn : n' = 0
  · obtain ⟨hle, hm, hde, hsr, hn2⟩ := p6
    simp only at *
    have : k6 = n := by omega
    subst this
    simp [hn, hm]
  · simp only at l6
    have hn1 : n' = 1 := by omega
    subst hn1
    obtain ⟨hle, hm, hde, hsr, hn2⟩ := p6
    simp only at *
    have hk : n = k6 + 1 := by omega
    subst hk
    have hl : m'.loadN s' 1 = .ok (bytes m (s + k6) 1) := by
      rw [hm, hsr, loadN_bytes, bytes_patch_fwd hf (by omega)]
      exact Valid.patch ((hs.shift (k := k6) (by omega)).mono (by omega))
    have hst : (m' d').isSome := by
      rw [hm, hde]; exact isSome_patch (hd k6 (by omega))
    simp only [loadN, bytes] at hl
    cases hb : m'.load s' with
    | ok b =>
      simp [hb] at hl
      simp [store_ok hst]
      rw [hm, hde, bytes_add]
      have := patch_append m d (bytes m s k6) [b]
      simp only [length_bytes] at this
      rw [this, hl]
      simp [bytes]
    | ub => simp [hb] at hl
    | panic => simp [hb] at hl

theorem backwardCopy_ok {d s : Nat} (hds : s < d) :
    ∀ (k : Nat) (m : Mem), m.Valid s k → m.Valid d k → 
      backwardCopy m d s k = .ok (m.patch d (bytes m s k)) := by
  intro k
  induction k with
  | zero => intro m _ _; simp [backwardCopy, bytes, patch_nil]
  | succ k ih =>
    intro m hs hd
    have h1 := hs k (by omega)
    obtain ⟨b, hb⟩ := Option.isSome_iff_exists.1 h1
    have h2 := hd k (by omega)
    simp only [backwardCopy, load, hb, Res.ok_bind, store_ok h2]
    rw [ih]
    · rw [bytes_add, ← patch_append]
      have hb2 : bytes (m.patch (d + k) [b]) s k = bytes m s k := by
        apply bytes_congr
        intro i hi
        simp only [Mem.patch, List.length_singleton]
        rw [if_neg (by omega)]
      rw [hb2]
      have hbs : bytes m (s + k) 1 = [b] := by simp [bytes, hb]
      rw [hbs]
      congr 1
      funext x
      simp only [Mem.patch, length_bytes, List.length_singleton]
      by_cases hx : d ≤ x ∧ x < d + k
      · rw [if_pos hx, if_neg (by omega), if_pos hx]
      · rw [if_neg hx, if_neg hx]
    · exact Valid.patch (hs.mono (by omega))
    · exact Valid.patch (hd.mono (by omega))

/-- `patch` with bytes read elsewhere, pointwise. -/
theorem patch_bytes_apply {m : Mem} {d s n x : Nat} (hs : m.Valid s n) :
    m.patch d (bytes m s n) x = if d ≤ x ∧ x < d + n then m (s + (x - d)) else m x := by
  simp only [Mem.patch, length_bytes]
  split
  · rw [getElem?_bytes hs (by omega)]
  · rfl

/-! ### memset -/

theorem leBytes_pattern64 : ∀ b : UInt8, leBytes 8 (pattern64 b).toNat = List.replicate 8 b := by
  have : ∀ i : Fin 256, leBytes 8 (pattern64 (UInt8.ofFin i)).toNat = List.replicate 8 (UInt8.ofFin i) := by
    decide +kernel
  intro b; simpa using this b.toFin

theorem leBytes_pattern32 : ∀ b : UInt8, leBytes 4 (pattern32 b).toNat = List.replicate 4 b := by
  have : ∀ i : Fin 256, leBytes 4 (pattern32 (UInt8.ofFin i)).toNat = List.replicate 4 (UInt8.ofFin i) := by
    decide +kernel
  intro b; simpa using this b.toFin

theorem leBytes_pattern16 : ∀ b : UInt8, leBytes 2 (pattern16 b).toNat = List.replicate 2 b := by
  have : ∀ i : Fin 256, leBytes 2 (pattern16 (UInt8.ofFin i)).toNat = List.replicate 2 (UInt8.ofFin i) := by
    decide +kernel
  intro b; simpa using this b.toFin

/-- The state of memset after `k` of `N` bytes. -/
structure SetProgress (m0 : Mem) (d0 : Nat) (b : UInt8) (N k : Nat) (st : Mem × Nat × Nat) : Prop where
  le : k ≤ N
  mem : st.1 = m0.patch d0 (List.replicate k b)
  dest : st.2.1 = d0 + k
  n : st.2.2 = N - k

theorem store_setProgress {m0 : Mem} {d0 N k : Nat} {b : UInt8} {m : Mem} {d n : Nat}
    (hd : m0.Valid d0 N) (hp : SetProgress m0 d0 b N k (m, d, n + 1)) :
    ∃ m', m.store d b = .ok m' ∧ SetProgress m0 d0 b N (k + 1) (m', d + 1, n) := by
  obtain ⟨hle, hm, hde, hn⟩ := hp
  simp only at *
  have hst : (m d).isSome := by rw [hm, hde]; exact isSome_patch (hd k (by omega))
  refine ⟨_, store_ok hst, by omega, ?_, by simp only; omega, by simp only; omega⟩
  simp only
  rw [hm, hde]
  have := patch_append m0 d0 (List.replicate k b) [b]
  rw [List.length_replicate] at this
  rw [this, List.replicate_succ']

theorem setHead_progress {m0 : Mem} {d0 N : Nat} {b : UInt8} (hd : m0.Valid d0 N) :
    ∀ (n : Nat) (m : Mem) (d k : Nat), SetProgress m0 d0 b N k (m, d, n) →
    ∃ k' st', setHead m d b n = .ok st' ∧ SetProgress m0 d0 b N k' st' := by
  intro n
  induction n with
  | zero => intro m d k hp; exact ⟨k, _, rfl, hp⟩
  | succ n ih =>
    intro m d k hp
    unfold setHead
    split
    · obtain ⟨m', e, hp'⟩ := store_setProgress hd hp
      obtain ⟨k', st', e', hp''⟩ := ih _ _ _ hp'
      exact ⟨k', st', by simp [e, e'], hp''⟩
    · exact ⟨k, _, rfl, hp⟩

theorem flatten_replicate_replicate (b : UInt8) (size : Nat) :
    ∀ cnt, (List.replicate cnt (List.replicate size b)).flatten = List.replicate (size * cnt) b := by
  intro cnt
  rw [List.flatten_replicate_replicate, Nat.mul_comm]

theorem setWords_progress {m0 : Mem} {d0 N k size cnt : Nat} {b : UInt8} {m : Mem} {d n : Nat}
    (hd : m0.Valid d0 N) (hp : SetProgress m0 d0 b N k (m, d, n)) (hge : n ≥ size * cnt) :
    ∃ m', storeWords m d size (List.replicate cnt (List.replicate size b)) = .ok m' ∧
      SetProgress m0 d0 b N (k + size * cnt) (m', d + size * cnt, n - size * cnt) := by
  obtain ⟨hle, hm, hde, hn⟩ := hp
  simp only at *
  refine ⟨_, storeWords_ok ?_ ?_, by omega, ?_, by simp only; omega, by simp only; omega⟩
  · intro w hw; rw [List.eq_of_mem_replicate hw]; simp
  · rw [List.length_replicate, hm, hde]
    exact Valid.patch ((hd.shift (k := k) hle).mono (by omega))
  · simp only
    rw [flatten_replicate_replicate, hm, hde]
    have := patch_append m0 d0 (List.replicate k b) (List.replicate (size * cnt) b)
    rw [List.length_replicate] at this
    rw [this, List.replicate_append_replicate]

theorem setIf_progress {m0 : Mem} {d0 N k : Nat} {b : UInt8} (size cnt : Nat) {st : Mem × Nat × Nat}
    (hd : m0.Valid d0 N) (hp : SetProgress m0 d0 b N k st) :
    ∃ k' st', setIf size cnt (List.replicate size b) st = .ok st' ∧ SetProgress m0 d0 b N k' st' ∧
      (∀ c, st.2.2 < 2 * c → c = size * cnt → st'.2.2 < c) := by
  obtain ⟨m, d, n⟩ := st
  unfold setIf
  by_cases hge : n ≥ size * cnt
  · obtain ⟨m', e, hp'⟩ := setWords_progress hd hp hge
    refine ⟨_, _, ?_, hp', ?_⟩
    · simp only [hge, if_true]; simp [e]
    · intro c h1 h2; simp only at *; omega
  · refine ⟨k, _, ?_, hp, ?_⟩
    · simp [hge]
    · intro c h1 h2; simp only at *; omega

theorem setLoop_progress {m0 : Mem} {d0 N : Nat} {b : UInt8} (hd : m0.Valid d0 N) :
    ∀ (m : Mem) (d n k : Nat), SetProgress m0 d0 b N k (m, d, n) →
    ∃ k' st', setLoop m d (List.replicate 8 b) n = .ok st' ∧ SetProgress m0 d0 b N k' st' ∧
      st'.2.2 < 64 := by
  intro m d n
  induction n using Nat.strongRecOn generalizing m d with
  | ind n ih =>
    intro k hp
    by_cases hge : n ≥ 64
    · obtain ⟨m', e, hp'⟩ := setWords_progress (size := 8) (cnt := 8) hd hp hge
      obtain ⟨k', st', e', hp'', hlt⟩ := ih (n - 64) (by omega) _ _ _ hp'
      refine ⟨k', st', ?_, hp'', hlt⟩
      rw [setLoop]
      simp only [hge, if_true, e, Res.ok_bind]
      exact e'
    · exact ⟨k, _, by rw [setLoop]; simp [hge], hp, by simp only; omega⟩

theorem memset_ok {m : Mem} {d n : Nat} {v : Int} (hd : m.Valid d n) :
    memset m d v n = .ok (d, m.patch d (List.replicate n (UInt8.ofInt v))) := by
  have h0 : SetProgress m d (UInt8.ofInt v) n 0 (m, d, n) :=
    ⟨by omega, by simp [patch_nil], rfl, rfl⟩
  obtain ⟨k0, ⟨m1, d1, n1⟩, e0, p0⟩ := setHead_progress hd n m d 0 h0
  obtain ⟨k1, s1, e1, p1, l1⟩ := setLoop_progress hd m1 d1 n1 k0 p0
  obtain ⟨k2, s2, e2, p2, l2⟩ := setIf_progress 8 4 hd p1
  have l2 := l2 32 l1 rfl
  obtain ⟨k3, s3, e3, p3, l3⟩ := setIf_progress 8 2 hd p2
  have l3 := l3 16 l2 rfl
  obtain ⟨k4, s4, e4, p4, l4⟩ := setIf_progress 8 1 hd p3
  have l4 := l4 8 l3 rfl
  obtain ⟨k5, s5, e5, p5, l5⟩ := setIf_progress 4 1 hd p4
  have l5 := l5 4 l4 rfl
  obtain ⟨k6, s6, e6, p6, l6⟩ := setIf_progress 2 1 hd p5
  have l6 := l6 2 l5 rfl
  simp only [memset, leBytes_pattern64, leBytes_pattern32, leBytes_pattern16,
    e0, e1, e2, e3, e4, e5, e6, Res.ok_bind]
  obtain ⟨m', d', n'⟩ := s6
  by_cases hn : n' = 0
  · obtain ⟨hle, hm, hde, hn2⟩ := p6
    simp only at *
    have : k6 = n := by omega
    subst this
    simp [hn, hm]
  · simp only at l6
    have hn1 : n' = 1 := by omega
    subst hn1
    obtain ⟨m'', e, hle, hm, hde, hn2⟩ := store_setProgress hd p6
    simp only at *
    have hk : n = k6 + 1 := by omega
    subst hk
    simp [e, hm]

end Mlibc.MemFns
