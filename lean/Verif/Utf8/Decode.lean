import Verif.Utf8.Lemmas
/-
C12, C13: decoding.
-/
set_option linter.unusedSimpArgs false
namespace Mlibc.Utf8
open Mlibc

/-- The bytes `p` were consumed since the last complete character. -/
def PI (p : List UInt8) (st : St) : Prop :=
  (p = [] ∧ st.progress = 0) ∨ Pend (p.map UInt8.toNat) st

theorem PI.init : PI [] St.init := Or.inl ⟨rfl, rfl⟩

theorem step_PI (p : List UInt8) (st st' : St) (b : UInt8) (h : PI p st) :
    step st b = some st' ↔
      (st'.progress = 0 ∧ Encodes (p ++ [b]) st'.cpoint) ∨ Pend ((p ++ [b]).map UInt8.toNat) st' := by
  rw [step_eq]
  rcases h with ⟨rfl, h⟩ | h
  · obtain ⟨q, x⟩ := st
    simp only at h
    subst h
    rw [step_first]
    obtain ⟨q, y⟩ := st'
    simp only [List.nil_append, List.map_cons, List.map_nil, Encodes, scalarN, Option.ite_none_right_eq_some,
      Option.some.injEq, St.mk.injEq]
    constructor
    · rintro (⟨h1, rfl, rfl⟩ | h)
      · exact Or.inl ⟨rfl, h1, rfl⟩
      · exact Or.inr h
    · rintro (⟨h1, h2, rfl⟩ | h)
      · exact Or.inl ⟨h2, h1, rfl⟩
      · exact Or.inr h
  · rw [step_next _ _ _ _ h]
    simp only [List.map_append, List.map_cons, List.map_nil, Encodes]

theorem incomplete_pend (p : List UInt8) (h : Incomplete p) :
    (∃ st, Pend (p.map UInt8.toNat) st) ∧ ∀ c, ¬ Encodes p c := by
  obtain ⟨hp, q, c, hq, he⟩ := h
  unfold Encodes at he
  rw [List.map_append] at he
  have := pend_of_prefix _ _ c (by simpa using hp) (by simpa using hq) he
  refine ⟨this.1, ?_⟩
  intro c' h
  unfold Encodes at h
  rw [this.2] at h
  exact absurd h (by simp)

theorem pend_incomplete (p : List UInt8) (st : St) (h : Pend (p.map UInt8.toNat) st) : Incomplete p := by
  obtain ⟨q, hq, hlt, hs⟩ := h.completable
  refine ⟨?_, q.map UInt8.ofNat, (scalarN (p.map UInt8.toNat ++ q)).get hs, by simpa using hq, ?_⟩
  · rintro rfl; exact h
  · unfold Encodes
    rw [List.map_append]
    have : (q.map UInt8.ofNat).map UInt8.toNat = q := by
      rw [List.map_map]
      conv => rhs; rw [← List.map_id q]
      apply List.map_congr_left
      intro x hx
      have := hlt x hx
      simp; omega
    rw [this]; simp

/-- A complete character is decoded. -/
theorem decode_char (q : List UInt8) : ∀ (p : List UInt8) (st : St) (c : Nat) (obj : List UInt8) (n w : Nat),
    PI p st → q ≠ [] → Encodes (p ++ q) c →
    decodeLoop (q ++ obj) (q.length + n) (w + 1) st =
      if c = 0 then .ok ⟨.nullTerminator, q.length, [], ⟨0, c⟩⟩
      else (do
        let r ← decodeLoop obj n w ⟨0, c⟩
        return { r with consumed := q.length + r.consumed, out := c :: r.out }) := by
  induction q with
  | nil => intro p st c obj n w _ h; exact absurd rfl h
  | cons b q ih =>
    intro p st c obj n w hpi _ he
    have hn : (b :: q).length + n = (q.length + n) + 1 := by simp; omega
    rw [hn, List.cons_append, decodeLoop]
    by_cases hq : q = []
    · subst hq
      have hs : step st b = some ⟨0, c⟩ := (step_PI p st ⟨0, c⟩ b hpi).2 (Or.inl ⟨rfl, he⟩)
      rw [hs]
      by_cases hc : c = 0
      · simp [hc]
      · simp only [if_true, hc, if_false, List.length_nil, Nat.zero_add, List.nil_append, List.length_cons]
        cases decodeLoop obj n w ⟨0, c⟩ <;> simp [Nat.add_comm]
    · have hinc : Incomplete (p ++ [b]) := by
        refine ⟨by simp, q, c, hq, ?_⟩
        simpa using he
      obtain ⟨⟨st', hp'⟩, _⟩ := incomplete_pend _ hinc
      have hs : step st b = some st' := (step_PI p st st' b hpi).2 (Or.inr hp')
      rw [hs]
      have := ih (p ++ [b]) st' c obj n w (Or.inr hp') hq (by simpa using he)
      simp only [hp'.progress, if_false, this]
      by_cases hc : c = 0
      · simp [hc]
      · simp only [hc, if_false]
        cases decodeLoop obj n w ⟨0, c⟩ <;> simp
        omega

/-- An incomplete character is kept in the state. -/
theorem decode_incomplete (q : List UInt8) : ∀ (p : List UInt8) (st : St) (obj : List UInt8) (w : Nat),
    PI p st → Incomplete (p ++ q) →
    ∃ ds, decodeLoop (q ++ obj) q.length (w + 1) st = .ok ⟨.inputUnderflow, q.length, [], ds⟩ ∧
      Pend ((p ++ q).map UInt8.toNat) ds := by
  induction q with
  | nil =>
    intro p st obj w hpi hi
    simp only [List.append_nil] at hi ⊢
    rcases hpi with ⟨rfl, _⟩ | h
    · exact absurd rfl hi.1
    · refine ⟨st, ?_, h⟩
      simp only [List.length_nil, List.nil_append]
      unfold decodeLoop
      simp [stopStatus, h.progress]
  | cons b q ih =>
    intro p st obj w hpi hi
    have hinc : Incomplete (p ++ [b]) := by
      obtain ⟨_, q', c, hq', he⟩ := hi
      exact ⟨by simp, q ++ q', c, by simp [hq'], by simpa using he⟩
    obtain ⟨⟨st', hp'⟩, _⟩ := incomplete_pend _ hinc
    have hs : step st b = some st' := (step_PI p st st' b hpi).2 (Or.inr hp')
    obtain ⟨ds, h1, h2⟩ := ih (p ++ [b]) st' obj w (Or.inr hp') (by simpa using hi)
    refine ⟨ds, ?_, by simpa using h2⟩
    rw [List.cons_append, List.length_cons, decodeLoop, hs]
    simp [hp'.progress, h1]

/-- Anything else is rejected. -/
theorem decode_illegal (q : List UInt8) : ∀ (p : List UInt8) (st : St) (obj : List UInt8) (m w : Nat),
    PI p st → p ++ q ≠ [] → ¬ Incomplete (p ++ q) →
    (∀ k c, 1 ≤ k → k ≤ q.length → ¬ Encodes (p ++ q.take k) c) →
    ∃ k ds, decodeLoop (q ++ obj) (q.length + m) (w + 1) st = .ok ⟨.illegalInput, k, [], ds⟩ := by
  induction q with
  | nil =>
    intro p st obj m w hpi hne hi _
    simp only [List.append_nil] at hi hne
    rcases hpi with ⟨rfl, _⟩ | h
    · exact absurd rfl hne
    · exact absurd (pend_incomplete _ _ h) hi
  | cons b q ih =>
    intro p st obj m w hpi hne hi hno
    have hm : (b :: q).length + m = (q.length + m) + 1 := by simp; omega
    rw [List.cons_append, hm, decodeLoop]
    cases hs : step st b with
    | none => exact ⟨0, st, rfl⟩
    | some st' =>
      rcases (step_PI p st st' b hpi).1 hs with ⟨_, he⟩ | hp'
      · exact absurd he (by simpa using hno 1 st'.cpoint (by omega) (by simp))
      · obtain ⟨k, ds, h⟩ := ih (p ++ [b]) st' obj m w (Or.inr hp') (by simp) (by simpa using hi) (by
          intro k c hk1 hk2
          have := hno (k + 1) c (by omega) (by simp; omega)
          simpa using this)
        refine ⟨k + 1, ds, ?_⟩
        simp [hp'.progress, h]

theorem encodes_zero (l : List UInt8) (h : Encodes l 0) : l = [0] := by
  unfold Encodes at h
  match l with
  | [] => simp [scalarN] at h
  | [a] =>
    simp only [List.map_cons, List.map_nil, scalarN, Option.ite_none_right_eq_some, Option.some.injEq] at h
    have : a = 0 := UInt8.toNat.inj (by simpa using h.2)
    rw [this]
  | [a, b] =>
    simp only [List.map_cons, List.map_nil, scalarN, isCont, Option.ite_none_right_eq_some,
      Option.some.injEq] at h
    omega
  | [a, b, c] =>
    simp only [List.map_cons, List.map_nil, scalarN, isCont, Option.ite_none_right_eq_some,
      Option.some.injEq] at h
    omega
  | [a, b, c, d] =>
    simp only [List.map_cons, List.map_nil, scalarN, isCont, Option.ite_none_right_eq_some,
      Option.some.injEq] at h
    omega
  | _ :: _ :: _ :: _ :: _ :: _ => simp [scalarN] at h

theorem decodeLoop_zero_room (obj : List UInt8) (n : Nat) (ds : St) :
    decodeLoop obj n 0 ds = .ok ⟨stopStatus ds n, 0, [], ds⟩ := by
  unfold decodeLoop; rfl

/-! ### C12 -/

/-- **C12, acceptance.** In the initial conversion state, if the bytes at `s` start with the well-formed
encoding `bs` of the character `c ≠ 0` and at least that many bytes may be examined, mbrtowc stores `c`,
returns the number of bytes of the encoding and is in the initial conversion state again. Nothing behind
the encoding is read (`rest` may be empty even if `n` is larger). -/
theorem mbrtowc_accepts (bs rest : List UInt8) (c n : Nat) (st : St) (hst : st.progress = 0)
    (h : Encodes bs c) (hc : c ≠ 0) (hn : bs.length ≤ n) :
    ∃ st', mbrtowc (bs ++ rest) n st = .ok (.count bs.length, some c, st') ∧ st'.progress = 0 := by
  have hne : bs ≠ [] := by rintro rfl; simp [Encodes, scalarN] at h
  obtain ⟨k, rfl⟩ := Nat.exists_eq_add_of_le hn
  have := decode_char bs [] st c rest k 0 (Or.inl ⟨rfl, hst⟩) hne (by simpa using h)
  refine ⟨⟨0, c⟩, ?_, rfl⟩
  unfold mbrtowc decodeWtranscode
  rw [this]
  simp only [hc, if_false, decodeLoop_zero_room]
  unfold stopStatus
  by_cases hk : k = 0 <;> simp [hk, ensure]

/-- **C12, the null character.** -/
theorem mbrtowc_null (rest : List UInt8) (n : Nat) (st : St) (hst : st.progress = 0) (hn : 1 ≤ n) :
    mbrtowc (0 :: rest) n st = .ok (.count 0, some 0, St.init) := by
  obtain ⟨k, rfl⟩ := Nat.exists_eq_add_of_le hn
  have := decode_char [0] [] st 0 rest k 0 (Or.inl ⟨rfl, hst⟩) (by simp) rfl
  unfold mbrtowc decodeWtranscode
  simp only [List.cons_append, List.nil_append, List.length_cons, List.length_nil, Nat.zero_add,
    if_true] at this
  rw [this]
  simp [ensure]

/-- **C12, incomplete input.** If the `n` bytes that may be examined are a proper prefix of a well-formed
encoding, mbrtowc returns (size_t)-2 and stores nothing. -/
theorem mbrtowc_incomplete (s : List UInt8) (n : Nat) (st : St) (hst : st.progress = 0)
    (hn : n ≤ s.length) (h : Incomplete (s.take n)) :
    ∃ st', mbrtowc s n st = .ok (.incomplete, none, st') := by
  obtain ⟨ds, h1, _⟩ := decode_incomplete (s.take n) [] st (s.drop n) 0 (Or.inl ⟨rfl, hst⟩) (by simpa using h)
  refine ⟨ds, ?_⟩
  rw [List.take_append_drop, List.length_take, Nat.min_eq_left hn] at h1
  unfold mbrtowc decodeWtranscode
  rw [h1]; simp [ensure]

/-- **C12, rejection.** If the bytes that may be examined neither start with a well-formed encoding nor are
an incomplete one, mbrtowc returns (size_t)-1 with EILSEQ and stores nothing. -/
theorem mbrtowc_rejects (s : List UInt8) (n : Nat) (st : St) (hst : st.progress = 0)
    (hn : n ≤ s.length) (h0 : n ≠ 0) (h1 : ¬ Incomplete (s.take n))
    (h2 : ∀ k c, k ≤ n → ¬ Encodes (s.take k) c) :
    mbrtowc s n st = .ok (.eilseq, none, st) := by
  obtain ⟨k, ds, h⟩ := decode_illegal (s.take n) [] st (s.drop n) 0 0 (Or.inl ⟨rfl, hst⟩) (by
      simp only [List.nil_append]
      intro h
      have := congrArg List.length h
      rw [List.length_take, List.length_nil] at this; omega) (by simpa using h1) (by
      intro k c _ hk
      have hk' : k ≤ n := by
        simp at hk; omega
      rw [List.nil_append, List.take_take, Nat.min_eq_left hk']
      exact h2 k c hk')
  rw [List.take_append_drop, List.length_take, Nat.min_eq_left hn, Nat.add_zero] at h
  unfold mbrtowc decodeWtranscode
  rw [h]; simp [ensure]

/-- **C12, soundness.** Whatever mbrtowc accepts in the initial state is well-formed and it is never given
a wrong value: a positive count `k` with the character `c` is returned only if the first `k` bytes are the
well-formed encoding of `c`. -/
theorem mbrtowc_sound (s : List UInt8) (n : Nat) (st : St) (hst : st.progress = 0) (hn : n ≤ s.length)
    (k : Nat) (c : Option Nat) (st' : St) (hk : k ≠ 0)
    (h : mbrtowc s n st = .ok (.count k, c, st')) :
    ∃ v, c = some v ∧ v ≠ 0 ∧ k ≤ n ∧ Encodes (s.take k) v := by
  have h0 : n ≠ 0 := by
    rintro rfl
    unfold mbrtowc decodeWtranscode at h
    cases s <;> simp [decodeLoop, stopStatus, hst, ensure] at h <;> exact hk h.1.symm
  by_cases h2 : ∃ k c, k ≤ n ∧ Encodes (s.take k) c
  · obtain ⟨j, v, hj, he⟩ := h2
    have hl : (s.take j).length = j := by rw [List.length_take]; omega
    by_cases hv : v = 0
    · subst hv
      have hz := encodes_zero _ he
      obtain ⟨r, hr⟩ : ∃ r, s = 0 :: r := ⟨s.drop j, by
        conv => lhs; rw [← List.take_append_drop j s, hz]
        rfl⟩
      rw [hr, mbrtowc_null r n st hst (by omega)] at h
      simp at h; exact absurd h.1.symm hk
    · obtain ⟨st'', h3, _⟩ := mbrtowc_accepts (s.take j) (s.drop j) v n st hst he hv (by omega)
      rw [List.take_append_drop, h, hl] at h3
      simp at h3
      obtain ⟨rfl, rfl, _⟩ := h3
      exact ⟨v, rfl, hv, hj, he⟩
  · have h2' : ∀ k c, k ≤ n → ¬ Encodes (s.take k) c := fun k c hk he => h2 ⟨k, c, hk, he⟩
    by_cases h1 : Incomplete (s.take n)
    · obtain ⟨st'', h3⟩ := mbrtowc_incomplete s n st hst hn h1
      rw [h] at h3; simp at h3
    · have h3 := mbrtowc_rejects s n st hst hn h0 h1 h2'
      rw [h] at h3; simp at h3

/-- The euro sign, an overlong slash, a surrogate, and a truncated character. -/
example : Encodes [0xE2, 0x82, 0xAC] 0x20AC := rfl
example : mbrtowc [0xE2, 0x82, 0xAC, 0x41] 4 St.init = .ok (.count 3, some 0x20AC, ⟨0, 0x20AC⟩) := by decide
example : ∀ k ≤ 2, ∀ c, ¬ Encodes ([0xC0, 0xAF].take k) c := by
  intro k hk c
  match k with
  | 0 => simp [Encodes, scalarN]
  | 1 => simp [Encodes, scalarN]
  | 2 => simp [Encodes, scalarN]
example : mbrtowc [0xC0, 0xAF] 2 St.init = .ok (.eilseq, none, St.init) := by decide
example : mbrtowc [0xED, 0xA0, 0x80] 3 St.init = .ok (.eilseq, none, St.init) := by decide
example : Incomplete [0xF0, 0x9F] := ⟨by simp, [0x98, 0x80], 0x1F600, by simp, rfl⟩

/-! ### C13 -/

/-- A caller that feeds the `chunk` to mbrtowc with the state `st`, call by call: the characters obtained
(0 for the null character) and the final state, `none` if EILSEQ was reported. `fuel` bounds the number of
calls. -/
def feedChunk : Nat → List UInt8 → St → Res (List Nat × Option St)
  | 0, _, st => .ok ([], some st)
  | fuel + 1, chunk, st =>
    if chunk = [] then .ok ([], some st)
    else do
      let (r, wc, st') ← mbrtowc chunk chunk.length st
      match r with
      | .incomplete => .ok ([], some st')
      | .eilseq => .ok ([], none)
      | .count k => do
        let (cs, f) ← feedChunk fuel (chunk.drop (if k = 0 then 1 else k)) st'
        .ok (wc.getD 0 :: cs, f)

/-- The same for a sequence of chunks through one state; the caller stops at EILSEQ. -/
def feedChunks : List (List UInt8) → St → Res (List Nat × Option St)
  | [], st => .ok ([], some st)
  | ch :: chs, st => do
    let (cs, f) ← feedChunk ch.length ch st
    match f with
    | none => .ok (cs, none)
    | some st' => do
      let (cs', f') ← feedChunks chs st'
      .ok (cs ++ cs', f')

/-- Bytewise run of the decoder. -/
def run : St → List UInt8 → List Nat × Option St
  | st, [] => ([], some st)
  | st, b :: bs =>
    match step st b with
    | none => ([], none)
    | some st' => if st'.progress = 0 then (st'.cpoint :: (run st' bs).1, (run st' bs).2) else run st' bs

theorem run_append (a b : List UInt8) : ∀ st, run st (a ++ b) =
    match run st a with
    | (cs, none) => (cs, none)
    | (cs, some st') => (cs ++ (run st' b).1, (run st' b).2) := by
  induction a with
  | nil => intro st; simp [run]
  | cons x a ih =>
    intro st
    rw [List.cons_append, run, run]
    cases step st x with
    | none => rfl
    | some st' =>
      simp only [ih st']
      by_cases h : st'.progress = 0
      · simp only [h, if_true]
        rcases run st' a with ⟨cs, _ | s⟩ <;> simp
      · simp only [h, if_false]

/-- Decoding one character of a chunk, in terms of `run`. -/
theorem decodeLoop_run (chunk : List UInt8) : ∀ (p : List UInt8) (st : St), PI p st →
    ∃ r, decodeLoop chunk chunk.length 1 st = .ok r ∧
      ((r.status = .illegalInput ∧ r.out = [] ∧ run st chunk = ([], none)) ∨
       (r.status = .nullTerminator ∧ p = [] ∧ r.consumed = 1 ∧ 1 ≤ chunk.length ∧
          run st chunk = (0 :: (run St.init (chunk.drop 1)).1, (run St.init (chunk.drop 1)).2)) ∨
       (r.status = .inputUnderflow ∧ r.out = [] ∧ run st chunk = ([], some r.ds) ∧
          Pend ((p ++ chunk).map UInt8.toNat) r.ds) ∨
       (chunk = [] ∧ r.status = .inputExhausted ∧ st.progress = 0) ∨
       ((r.status = .inputExhausted ∨ r.status = .outputExhausted) ∧ r.ds.progress = 0 ∧
          1 ≤ r.consumed ∧ r.consumed ≤ chunk.length ∧ ∃ c, r.out = [c] ∧
          run st chunk = (c :: (run r.ds (chunk.drop r.consumed)).1,
            (run r.ds (chunk.drop r.consumed)).2))) := by
  induction chunk with
  | nil =>
    intro p st hpi
    rcases hpi with ⟨rfl, h⟩ | h
    · refine ⟨_, by unfold decodeLoop; rfl, Or.inr (Or.inr (Or.inr (Or.inl ⟨rfl, ?_, h⟩)))⟩
      simp [stopStatus, h]
    · refine ⟨_, by unfold decodeLoop; rfl, Or.inr (Or.inr (Or.inl ⟨?_, rfl, rfl, by simpa using h⟩))⟩
      simp [stopStatus, h.progress]
  | cons b chunk ih =>
    intro p st hpi
    rw [List.length_cons, decodeLoop, run]
    cases hs : step st b with
    | none => exact ⟨_, rfl, Or.inl ⟨rfl, rfl, rfl⟩⟩
    | some st' =>
      rcases (step_PI p st st' b hpi).1 hs with ⟨h0, he⟩ | hp'
      · obtain ⟨q, c⟩ := st'
        simp only at h0 he
        subst h0
        by_cases hc : c = 0
        · subst hc
          have hz := encodes_zero _ he
          have hp : p = [] := by
            have := congrArg List.length hz
            simp at this; exact this
          refine ⟨⟨.nullTerminator, 1, [], ⟨0, 0⟩⟩, by simp, Or.inr (Or.inl ⟨rfl, hp, rfl, by simp, ?_⟩)⟩
          simp [St.init]
        · simp only [if_true, hc, if_false, decodeLoop_zero_room, Res.ok_bind]
          refine ⟨_, rfl, Or.inr (Or.inr (Or.inr (Or.inr ⟨?_, rfl, by simp, by simp, c, rfl, ?_⟩)))⟩
          · unfold stopStatus; by_cases hk : chunk.length = 0 <;> simp [hk]
          · simp
      · obtain ⟨r, h1, h2⟩ := ih (p ++ [b]) st' (Or.inr hp')
        simp only [hp'.progress, if_false, h1, Res.ok_bind]
        refine ⟨_, rfl, ?_⟩
        rcases h2 with h | h | h | h | h
        · exact Or.inl h
        · exact absurd h.2.1 (by simp)
        · exact Or.inr (Or.inr (Or.inl (by simpa using h)))
        · exact absurd h.2.2 hp'.progress
        · refine Or.inr (Or.inr (Or.inr (Or.inr ?_)))
          obtain ⟨e1, e2, e3, e4, c, e5, e6⟩ := h
          exact ⟨e1, e2, by simp, by simpa using e4, c, e5, by simpa using e6⟩

theorem feedChunk_run (fuel : Nat) : ∀ (chunk p : List UInt8) (st : St), chunk.length ≤ fuel → PI p st →
    feedChunk fuel chunk st = .ok (run st chunk) ∧
      ∀ st', (run st chunk).2 = some st' → ∃ p', PI p' st' := by
  induction fuel with
  | zero =>
    intro chunk p st hl hpi
    have : chunk = [] := by cases chunk <;> simp at hl ⊢
    subst this
    simp only [feedChunk, run, true_and, Option.some.injEq]
    rintro _ rfl; exact ⟨p, hpi⟩
  | succ fuel ih =>
    intro chunk p st hl hpi
    unfold feedChunk
    by_cases hne : chunk = []
    · subst hne
      simp only [if_true, run, true_and, Option.some.injEq]
      rintro _ rfl; exact ⟨p, hpi⟩
    · rw [if_neg hne]
      obtain ⟨r, h1, h2⟩ := decodeLoop_run chunk p st hpi
      unfold mbrtowc decodeWtranscode
      rw [h1]
      have hpos : 0 < chunk.length := List.length_pos_iff.2 hne
      simp only [ensure, ne_eq, Nat.succ_ne_zero, not_false_eq_true, if_true, Res.ok_bind, Res.pure_eq,
        decide_true]
      rcases h2 with ⟨e, _, hr⟩ | ⟨e, _, _, _, hr⟩ | ⟨e, _, hr, hp'⟩ | ⟨e, _⟩ | ⟨e, hd, hc1, hc2, c, ho, hr⟩
      · simp [e, hr]
      · have := ih (chunk.drop 1) [] St.init (by simp; omega) PI.init
        simp only [e, Res.ok_bind, if_true, this.1, hr]
        refine ⟨by simp, this.2⟩
      · simp only [e, Res.ok_bind, hr]
        refine ⟨by simp, ?_⟩
        simp only [Option.some.injEq]
        rintro _ rfl; exact ⟨_, Or.inr hp'⟩
      · exact absurd e hne
      · have hk : r.consumed ≠ 0 := by omega
        have := ih (chunk.drop r.consumed) [] r.ds (by simp; omega) (Or.inl ⟨rfl, hd⟩)
        rcases e with e | e <;>
        · simp only [e, Res.ok_bind, if_true, this.1, hr, ho, reduceCtorEq, or_self, if_false, hk]
          refine ⟨by simp [this.1], this.2⟩

theorem feedChunks_run (chunks : List (List UInt8)) : ∀ (p : List UInt8) (st : St), PI p st →
    feedChunks chunks st = .ok (run st chunks.flatten) := by
  induction chunks with
  | nil => intro p st _; simp [feedChunks, run]
  | cons ch chs ih =>
    intro p st hpi
    obtain ⟨h1, h2⟩ := feedChunk_run ch.length ch p st (Nat.le_refl _) hpi
    rw [List.flatten_cons, run_append, feedChunks, h1]
    rcases hr : run st ch with ⟨cs, _ | st'⟩
    · simp
    · obtain ⟨p', hp'⟩ := h2 st' (by rw [hr])
      simp [ih p' st' hp']

/-- **C13.** A caller that reads a byte stream through mbrtowc, from the initial conversion state, obtains
the same characters, the same verdict and the same final conversion state however the stream is cut into
chunks: the result depends only on the concatenation. (The caller makes no call for an empty chunk, see
`mbrtowc_empty_violated`.) -/
theorem mbrtowc_chunking (chunks chunks' : List (List UInt8)) (h : chunks.flatten = chunks'.flatten) :
    feedChunks chunks St.init = feedChunks chunks' St.init ∧
    feedChunks chunks St.init = feedChunks [chunks.flatten] St.init := by
  rw [feedChunks_run chunks [] _ PI.init, feedChunks_run chunks' [] _ PI.init,
    feedChunks_run [chunks.flatten] [] _ PI.init, h]
  simp

/-- What the stream is decoded to: if it is the concatenation of the encodings of `cs`, exactly `cs`. -/
theorem mbrtowc_stream (chunks : List (List UInt8)) (cs : List Nat) (h : EncodesStr chunks.flatten cs) :
    ∃ st, feedChunks chunks St.init = .ok (cs, some st) ∧ st.progress = 0 := by
  rw [feedChunks_run chunks [] _ PI.init]
  have hrun1 : ∀ (q p : List UInt8) (st : St) (c : Nat), PI p st → q ≠ [] → Encodes (p ++ q) c →
      run st q = ([c], some ⟨0, c⟩) := by
    intro q
    induction q with
    | nil => intro p st c _ h; exact absurd rfl h
    | cons b q ih =>
      intro p st c hpi _ he
      rw [run]
      by_cases hq : q = []
      · subst hq
        rw [(step_PI p st ⟨0, c⟩ b hpi).2 (Or.inl ⟨rfl, he⟩)]
        simp [run]
      · obtain ⟨⟨st', hp'⟩, _⟩ := incomplete_pend (p ++ [b]) ⟨by simp, q, c, hq, by simpa using he⟩
        rw [(step_PI p st st' b hpi).2 (Or.inr hp')]
        simp [hp'.progress, ih (p ++ [b]) st' c (Or.inr hp') hq (by simpa using he)]
  have key : ∀ (bs : List UInt8) (cs : List Nat), EncodesStr bs cs → ∀ st, st.progress = 0 →
      ∃ st', run st bs = (cs, some st') ∧ st'.progress = 0 := by
    intro bs cs h
    induction h with
    | nil => intro st h; exact ⟨st, rfl, h⟩
    | @cons b c bs cs he _ ih =>
      intro st hst
      have hne : b ≠ [] := by rintro rfl; simp [Encodes, scalarN] at he
      obtain ⟨st', h1, h2⟩ := ih ⟨0, c⟩ rfl
      refine ⟨st', ?_, h2⟩
      rw [run_append, hrun1 b [] st c (Or.inl ⟨rfl, hst⟩) hne he]
      simp [h1]
  obtain ⟨st', h1, h2⟩ := key _ _ h St.init rfl
  exact ⟨st', by rw [h1], h2⟩

/-- A euro sign cut in three, followed by an `A`. -/
example : EncodesStr [[0xE2], [0x82], [0xAC, 0x41]].flatten [0x20AC, 0x41] :=
  .cons (b := [0xE2, 0x82, 0xAC]) rfl (.cons (b := [0x41]) rfl .nil)
example : feedChunks [[0xE2], [0x82], [0xAC, 0x41]] St.init = .ok ([0x20AC, 0x41], some ⟨0, 0x41⟩) := by decide

/-- **C13 does not hold of the code for an empty chunk.** With `n = 0` no character is complete, so the
result must be (size_t)-2 (ISO C 7.31.6.4.3); the code returns 0, which means that the null character was
read. -/
theorem mbrtowc_empty_violated : mbrtowc [0x41] 0 St.init = .ok (.count 0, none, St.init) := by decide

end Mlibc.Utf8
