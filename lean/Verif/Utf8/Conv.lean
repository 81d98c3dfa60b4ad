import Verif.Utf8.Encode
/-
C14: conversion of strings.
-/
set_option linter.unusedSimpArgs false
namespace Mlibc.Utf8
open Mlibc

/-- The decoding loop on a well-formed string followed by anything. -/
theorem decode_str {bs : List UInt8} {cs : List Nat} (h : EncodesStr bs cs) : ∀ (h0 : 0 ∉ cs) (st : St)
    (obj : List UInt8) (n w : Nat), st.progress = 0 →
    ∃ st', st'.progress = 0 ∧ decodeLoop (bs ++ obj) (bs.length + n) (cs.length + w) st = (do
      let r ← decodeLoop obj n w st'
      return { r with consumed := bs.length + r.consumed, out := cs ++ r.out }) := by
  induction h with
  | nil =>
    intro _ st obj n w hst
    refine ⟨st, hst, ?_⟩
    simp only [List.nil_append, List.length_nil, Nat.zero_add]
    cases decodeLoop obj n w st <;> rfl
  | @cons b c bs cs he _ ih =>
    intro h0 st obj n w hst
    simp only [List.mem_cons, not_or] at h0
    have hc : c ≠ 0 := fun h => h0.1 h.symm
    have hne : b ≠ [] := by rintro rfl; simp [Encodes, scalarN] at he
    obtain ⟨st', h1, h2⟩ := ih h0.2 ⟨0, c⟩ obj n w rfl
    refine ⟨st', h1, ?_⟩
    have e1 : (b ++ bs).length + n = b.length + (bs.length + n) := by simp; omega
    have e2 : (c :: cs).length + w = cs.length + w + 1 := by simp; omega
    rw [e1, e2, List.append_assoc, decode_char b [] st c _ _ _ (Or.inl ⟨rfl, hst⟩) hne he, if_neg hc, h2]
    cases decodeLoop obj n w st' <;> simp
    omega

theorem decode_null (rest : List UInt8) (n w : Nat) (st : St) (hst : st.progress = 0) :
    decodeLoop (0 :: rest) (n + 1) (w + 1) st = .ok ⟨.nullTerminator, 1, [], ⟨0, 0⟩⟩ := by
  have := decode_char [0] [] st 0 rest n w (Or.inl ⟨rfl, hst⟩) (by simp) rfl
  simpa [Nat.add_comm] using this

/-- The bytes `b` do not start with a character. -/
def Bad (b : List UInt8) : Prop := b ≠ [] ∧ ∀ k c, ¬ Encodes (b.take k) c

theorem not_pend_zero (p : List Nat) (st : St) (hp : p ≠ []) : ¬ Pend (p ++ [0]) st := by
  match p with
  | [] => exact absurd rfl hp
  | [a] => simp [Pend, isCont]
  | [a, b] => simp [Pend, isCont]
  | a :: b :: c :: r => simp [Pend]

theorem decode_bad (b rest : List UInt8) (n w : Nat) (st : St) (hst : st.progress = 0) (hb : Bad b)
    (hn : b.length + 1 ≤ n) :
    ∃ k ds, decodeLoop (b ++ 0 :: rest) n (w + 1) st = .ok ⟨.illegalInput, k, [], ds⟩ := by
  obtain ⟨m, rfl⟩ := Nat.exists_eq_add_of_le hn
  have hne : b.map UInt8.toNat ≠ [] := by simpa using hb.1
  have := decode_illegal (b ++ [0]) [] st rest m w (Or.inl ⟨rfl, hst⟩) (by simp) (by
    rw [List.nil_append]
    intro hi
    obtain ⟨⟨s, hs⟩, _⟩ := incomplete_pend _ hi
    rw [List.map_append] at hs
    exact not_pend_zero _ s hne hs) (by
    intro k c _ hk
    rw [List.nil_append]
    by_cases hk' : k ≤ b.length
    · rw [List.take_append_of_le_length hk']; exact hb.2 k c
    · rw [List.take_of_length_le (by simp; omega)]
      intro he
      unfold Encodes at he
      rw [List.map_append] at he
      obtain ⟨h1, h2, h3⟩ : ∃ x y, b = x :: y := by
        cases b with
        | nil => exact absurd rfl hb.1
        | cons x y => exact ⟨x, y, rfl⟩
      match b with
      | [] => exact absurd rfl hb.1
      | [x] => simp [scalarN, isCont] at he
      | [x, y] => simp [scalarN, isCont] at he
      | [x, y, z] => simp [scalarN, isCont] at he
      | x :: y :: z :: t :: r => simp [scalarN] at he)
  simpa using this

/-- Every string is a well-formed part followed by nothing or by a bad part. -/
theorem split_str (n : Nat) : ∀ (s : List UInt8), s.length ≤ n →
    ∃ g b cs, s = g ++ b ∧ EncodesStr g cs ∧ (b = [] ∨ Bad b) := by
  induction n with
  | zero =>
    intro s hs
    refine ⟨[], s, [], rfl, .nil, Or.inl ?_⟩
    cases s <;> simp at hs ⊢
  | succ n ih =>
    intro s hs
    by_cases h : ∃ k c, Encodes (s.take k) c
    · obtain ⟨k, c, he⟩ := h
      have hl := (encodes_length _ _ he).1
      rw [List.length_take] at hl
      obtain ⟨g, b, cs, h1, h2, h3⟩ := ih (s.drop k) (by simp; omega)
      refine ⟨s.take k ++ g, b, c :: cs, ?_, .cons he h2, h3⟩
      rw [List.append_assoc, ← h1, List.take_append_drop]
    · by_cases hs0 : s = []
      · exact ⟨[], s, [], rfl, .nil, Or.inl hs0⟩
      · exact ⟨[], s, [], rfl, .nil, Or.inr ⟨hs0, fun k c he => h ⟨k, c, he⟩⟩⟩

/-! ### mbsrtowcs -/

/-- **C14, mbsrtowcs, whole string fits.** -/
theorem mbsrtowcs_fits (dst : List Nat) (bs rest : List UInt8) (cs : List Nat) (limit : Nat) (st : St)
    (hst : st.progress = 0) (h : EncodesStr bs cs) (h0 : 0 ∉ cs) (hl : cs.length < limit)
    (hd : limit ≤ dst.length) :
    mbsrtowcs dst (bs ++ 0 :: rest) limit st
      = .ok ⟨.count cs.length, none, cs ++ 0 :: dst.drop (cs.length + 1), St.init⟩ := by
  obtain ⟨w, rfl⟩ := Nat.exists_eq_add_of_lt hl
  obtain ⟨st', h1, h2⟩ := decode_str h h0 st (0 :: rest) ((0 :: rest).length + 1) (w + 1) hst
  unfold mbsrtowcs decodeWtranscode
  have e : (bs ++ 0 :: rest).length + 1 = bs.length + ((0 :: rest).length + 1) := by simp; omega
  have e2 : cs.length + w + 1 = cs.length + (w + 1) := by omega
  have hd1 : cs.length ≤ dst.length := by omega
  have hd2 : cs.length + 1 ≤ dst.length := by omega
  have hd4 : cs.drop (cs.length + 1) = [] := List.drop_eq_nil_of_le (by omega)
  have hd3 : cs.length < cs.length + (w + 1) := by omega
  rw [e, e2, h2, decode_null rest _ w st' h1]
  simp [ensure, storeAt, hd1, hd2, hd4, hd3, List.drop_append, Nat.add_comm 1]

/-- **C14, mbsrtowcs, the limit is reached.** `cs` are exactly `limit` characters; `bs'` follows. -/
theorem mbsrtowcs_limit (dst : List Nat) (bs bs' : List UInt8) (cs : List Nat) (st : St)
    (hst : st.progress = 0) (h : EncodesStr bs cs) (h0 : 0 ∉ cs) (hl : 1 ≤ cs.length)
    (hd : cs.length ≤ dst.length) :
    ∃ st', st'.progress = 0 ∧ mbsrtowcs dst (bs ++ bs') cs.length st
      = .ok ⟨.count cs.length, some bs.length, cs ++ dst.drop cs.length, st'⟩ := by
  obtain ⟨st', h1, h2⟩ := decode_str h h0 st bs' (bs'.length + 1) 0 hst
  refine ⟨st', h1, ?_⟩
  unfold mbsrtowcs decodeWtranscode
  have e : (bs ++ bs').length + 1 = bs.length + (bs'.length + 1) := by simp; omega
  have hl' : cs.length ≠ 0 := by omega
  simp only [Nat.add_zero] at h2
  rw [e, h2, decodeLoop_zero_room]
  simp [ensure, storeAt, hd, hl', stopStatus, h1]

/-- **C14, mbsrtowcs, ill-formed input** before the limit: EILSEQ, no abort, nothing beyond the limit. -/
theorem mbsrtowcs_illformed (dst : List Nat) (bs b rest : List UInt8) (cs : List Nat) (limit : Nat) (st : St)
    (hst : st.progress = 0) (h : EncodesStr bs cs) (h0 : 0 ∉ cs) (hb : Bad b) (hl : cs.length < limit)
    (hd : limit ≤ dst.length) :
    mbsrtowcs dst (bs ++ b ++ 0 :: rest) limit st
      = .ok ⟨.eilseq, some 0, cs ++ dst.drop cs.length, st⟩ := by
  obtain ⟨w, rfl⟩ := Nat.exists_eq_add_of_lt hl
  obtain ⟨st', h1, h2⟩ := decode_str h h0 st (b ++ 0 :: rest) ((b ++ 0 :: rest).length + 1) (w + 1) hst
  obtain ⟨k, ds, h3⟩ := decode_bad b rest ((b ++ 0 :: rest).length + 1) w st' h1 hb (by simp)
  unfold mbsrtowcs decodeWtranscode
  have e : (bs ++ b ++ 0 :: rest).length + 1 = bs.length + ((b ++ 0 :: rest).length + 1) := by simp; omega
  have e2 : cs.length + w + 1 = cs.length + (w + 1) := by omega
  have hd1 : cs.length ≤ dst.length := by omega
  rw [e, e2, List.append_assoc, h2, h3]
  simp [ensure, storeAt, hd1]

/-- The three cases cover every NUL-terminated string and every limit above 0, so mbsrtowcs never aborts
nor reads or writes out of bounds there. -/
theorem mbsrtowcs_total (dst : List Nat) (s rest : List UInt8) (limit : Nat) (hs : 0 ∉ s) (hl : 1 ≤ limit)
    (hd : limit ≤ dst.length) :
    ∃ r, mbsrtowcs dst (s ++ 0 :: rest) limit St.init = .ok r ∧ r.dst.length = dst.length ∧
      r.dst.drop limit = dst.drop limit := by
  have nz : ∀ {g cs}, EncodesStr g cs → 0 ∉ g → 0 ∉ cs := by
    intro g cs h
    induction h with
    | nil => simp
    | @cons b c g cs he _ ih =>
      intro hg
      simp only [List.mem_append, not_or] at hg
      simp only [List.mem_cons, not_or]
      refine ⟨?_, ih hg.2⟩
      rintro rfl
      have := encodes_zero b he
      subst this
      simp at hg
  obtain ⟨g, b, cs, rfl, h1, h2⟩ := split_str s.length s (Nat.le_refl _)
  have h0 : 0 ∉ cs := nz h1 (fun h => hs (List.mem_append_left _ h))
  have cut : ∀ {g cs}, EncodesStr g cs → ∀ k, k ≤ cs.length →
      ∃ g1 g2, g = g1 ++ g2 ∧ EncodesStr g1 (cs.take k) := by
    intro g cs h
    induction h with
    | nil => intro k hk; exact ⟨[], [], rfl, by simpa using .nil⟩
    | @cons b c g cs he _ ih =>
      intro k hk
      cases k with
      | zero => exact ⟨[], _, rfl, .nil⟩
      | succ k =>
        obtain ⟨g1, g2, rfl, h⟩ := ih k (by simpa using hk)
        exact ⟨b ++ g1, g2, by simp, .cons he h⟩
  by_cases hlim : cs.length < limit
  · have hlen : ∀ (x : List Nat), cs.length + x.length ≤ limit → (cs ++ x ++ dst.drop (cs.length + x.length)).length
        = dst.length := by intro x hx; simp; omega
    rcases h2 with rfl | hb
    · rw [List.append_nil, mbsrtowcs_fits dst g rest cs limit St.init rfl h1 h0 hlim hd]
      refine ⟨_, rfl, ?_, ?_⟩
      · simp; omega
      · simp only
        rw [show cs ++ 0 :: dst.drop (cs.length + 1) = (cs ++ [0]) ++ dst.drop (cs.length + 1) by simp,
          List.drop_append, List.drop_of_length_le (by simp; omega), List.drop_drop, List.nil_append]
        congr 1; simp; omega
    · rw [mbsrtowcs_illformed dst g b rest cs limit St.init rfl h1 h0 hb hlim hd]
      refine ⟨_, rfl, ?_, ?_⟩
      · simp; omega
      · simp only
        rw [List.drop_append, List.drop_of_length_le (by omega), List.drop_drop, List.nil_append]
        congr 1; omega
  · obtain ⟨g1, g2, rfl, h3⟩ := cut h1 limit (by omega)
    have hlen : (cs.take limit).length = limit := by rw [List.length_take]; omega
    obtain ⟨st', _, h4⟩ := mbsrtowcs_limit dst g1 (g2 ++ b ++ 0 :: rest) (cs.take limit) St.init rfl h3
      (fun h => h0 (List.mem_of_mem_take h)) (by omega) (by omega)
    rw [hlen] at h4
    refine ⟨_, by simpa using h4, ?_, ?_⟩
    · simp; omega
    · simp only
      rw [List.drop_append, List.drop_of_length_le (by omega), List.drop_drop, List.nil_append, hlen]
      congr 1; omega

/-- **C14 does not hold of the code for a limit of 0** (`mbsrtowcs(dst, &src, 0, &st)` converts nothing and
returns 0): the `__ensure(wseq)` of decode_wtranscode aborts. -/
theorem mbsrtowcs_zero_limit_violated : mbsrtowcs [7] [0x41, 0] 0 St.init = .panic := by decide

/-! ### The length-only forms -/

theorem decodeLen_eq (obj : List UInt8) : ∀ (n w : Nat) (st : St), n < w →
    decodeLenLoop obj n st = (do let r ← decodeLoop obj n w st; return (r.status, r.out.length)) := by
  induction obj with
  | nil =>
    intro n w st h
    obtain ⟨w, rfl⟩ := Nat.exists_eq_add_of_lt h
    cases n with
    | zero => simp [decodeLenLoop, decodeLoop, stopStatus]
    | succ n =>
      have : n + 1 + w + 1 = (n + w + 1) + 1 := by omega
      rw [this]; simp [decodeLenLoop, decodeLoop]
  | cons b obj ih =>
    intro n w st h
    obtain ⟨w, rfl⟩ : ∃ w', w = w' + 1 := ⟨w - 1, by omega⟩
    cases n with
    | zero => simp [decodeLenLoop, decodeLoop, stopStatus]
    | succ n =>
      rw [decodeLenLoop, decodeLoop]
      cases step st b with
      | none => simp
      | some st' =>
        by_cases hp : st'.progress = 0
        · by_cases hc : st'.cpoint = 0
          · simp [hp, hc]
          · simp only [hp, hc, if_true, if_false]
            rw [ih n w st' (by omega)]
            cases decodeLoop obj n w st' <;> simp
        · simp only [hp, if_false]
          rw [ih n (w + 1) st' (by omega)]
          cases decodeLoop obj n (w + 1) st' <;> simp

/-- **C14, length-only mbsrtowcs.** For every source and state, the length-only form returns what the storing
form returns when the destination is large enough. -/
theorem mbsrtowcs_len (mbs : List UInt8) (st : St) (dst : List Nat) (limit : Nat)
    (hl : mbs.length + 1 < limit) (r : Conv Nat) (h : mbsrtowcs dst mbs limit st = .ok r) :
    mbsrtowcsLen mbs st = .ok r.ret := by
  unfold mbsrtowcs decodeWtranscode at h
  unfold mbsrtowcsLen
  rw [decodeLen_eq mbs (mbs.length + 1) limit st hl]
  have hl0 : limit ≠ 0 := by omega
  have hne : ∀ (obj : List UInt8) (n w : Nat) (st : St) (r : DecOut), obj.length < n → n < w →
      decodeLoop obj n w st = .ok r → r.status = .nullTerminator ∨ r.status = .illegalInput := by
    intro obj
    induction obj with
    | nil =>
      intro n w st r hn hw hr
      obtain ⟨n, rfl⟩ : ∃ n', n = n' + 1 := ⟨n - 1, by simp at hn; omega⟩
      obtain ⟨w, rfl⟩ : ∃ w', w = w' + 1 := ⟨w - 1, by omega⟩
      simp [decodeLoop] at hr
    | cons b obj ih =>
      intro n w st r hn hw hr
      obtain ⟨n, rfl⟩ : ∃ n', n = n' + 1 := ⟨n - 1, by simp at hn; omega⟩
      obtain ⟨w, rfl⟩ : ∃ w', w = w' + 1 := ⟨w - 1, by omega⟩
      rw [decodeLoop] at hr
      cases hs : step st b with
      | none => rw [hs] at hr; simp at hr; subst hr; exact Or.inr rfl
      | some st' =>
        rw [hs] at hr
        by_cases hp : st'.progress = 0
        · by_cases hc : st'.cpoint = 0
          · simp [hp, hc] at hr; subst hr; exact Or.inl rfl
          · simp only [hp, hc, if_true, if_false, Res.bind_eq_ok] at hr
            obtain ⟨r', h1, h2⟩ := hr
            simp at h2; subst h2
            exact ih n w st' r' (by simp at hn; omega) (by omega) h1
        · simp only [hp, if_false, Res.bind_eq_ok] at hr
          obtain ⟨r', h1, h2⟩ := hr
          simp at h2; subst h2
          exact ih n (w + 1) st' r' (by simp at hn; omega) (by omega) h1
  cases hd : decodeLoop mbs (mbs.length + 1) limit st with
  | ub => simp [hd, ensure, hl0] at h
  | panic => simp [hd, ensure, hl0] at h
  | ok d =>
    rcases hne mbs _ limit st d (by omega) hl hd with e | e <;>
    · simp only [hd, ensure, hl0, ne_eq, not_false_eq_true, decide_true, if_true, Res.ok_bind, Res.pure_eq, e,
        Res.bind_eq_ok] at h ⊢
      obtain ⟨d1, _, h2⟩ := h
      first
        | (cases h2; rfl)
        | (split at h2
           · simp only [Res.bind_eq_ok] at h2; obtain ⟨d2, _, h3⟩ := h2; cases h3; rfl
           · cases h2; rfl)

/-- **C14, length-only mbsnrtowcs.** -/
theorem mbsnrtowcs_len (mbs : List UInt8) (nmc : Nat) (st : St) (dst : List Nat) (limit : Nat)
    (hl : nmc < limit) (r : Conv Nat) (h : mbsnrtowcs dst mbs nmc limit st = .ok r) :
    mbsnrtowcsLen mbs nmc st = .ok r.ret := by
  unfold mbsnrtowcs decodeWtranscode at h
  unfold mbsnrtowcsLen
  rw [decodeLen_eq mbs nmc limit st hl]
  have hl0 : limit ≠ 0 := by omega
  have hne : ∀ (obj : List UInt8) (n w : Nat) (st : St) (r : DecOut), n < w →
      decodeLoop obj n w st = .ok r → r.status ≠ .outputExhausted := by
    intro obj
    induction obj with
    | nil =>
      intro n w st r hw hr
      obtain ⟨w, rfl⟩ : ∃ w', w = w' + 1 := ⟨w - 1, by omega⟩
      cases n with
      | zero => simp [decodeLoop, stopStatus] at hr; subst hr; simp; split <;> simp
      | succ n => simp [decodeLoop] at hr
    | cons b obj ih =>
      intro n w st r hw hr
      obtain ⟨w, rfl⟩ : ∃ w', w = w' + 1 := ⟨w - 1, by omega⟩
      cases n with
      | zero => simp [decodeLoop, stopStatus] at hr; subst hr; simp; split <;> simp
      | succ n =>
        rw [decodeLoop] at hr
        cases hs : step st b with
        | none => rw [hs] at hr; simp at hr; subst hr; simp
        | some st' =>
          rw [hs] at hr
          by_cases hp : st'.progress = 0
          · by_cases hc : st'.cpoint = 0
            · simp [hp, hc] at hr; subst hr; simp
            · simp only [hp, hc, if_true, if_false, Res.bind_eq_ok] at hr
              obtain ⟨r', h1, h2⟩ := hr
              simp at h2; subst h2
              exact ih n w st' r' (by omega) h1
          · simp only [hp, if_false, Res.bind_eq_ok] at hr
            obtain ⟨r', h1, h2⟩ := hr
            simp at h2; subst h2
            exact ih n (w + 1) st' r' (by omega) h1
  cases hd : decodeLoop mbs nmc limit st with
  | ub => simp [hd, ensure, hl0] at h
  | panic => simp [hd, ensure, hl0] at h
  | ok d =>
    have hx := hne mbs _ limit st d hl hd
    cases e : d.status <;>
    first
    | exact absurd e hx
    | (simp only [hd, ensure, hl0, ne_eq, not_false_eq_true, decide_true, if_true, Res.ok_bind, Res.pure_eq, e,
        Res.bind_eq_ok] at h ⊢
       obtain ⟨d1, _, h2⟩ := h
       first
        | (cases h2; rfl)
        | (split at h2
           · simp only [Res.bind_eq_ok] at h2; obtain ⟨d2, _, h3⟩ := h2; cases h3; rfl
           · cases h2; rfl)
        | (simp at h2))

/-! ### mbsnrtowcs -/

/-- **C14, mbsnrtowcs, the byte limit is reached.** All `nmc` bytes are consumed; an incomplete last character
is kept in the state and nothing is stored for it. -/
theorem mbsnrtowcs_bytes (dst : List Nat) (bs b rest : List UInt8) (cs : List Nat) (limit : Nat) (st : St)
    (hst : st.progress = 0) (h : EncodesStr bs cs) (h0 : 0 ∉ cs) (hb : b = [] ∨ Incomplete b)
    (hl : cs.length < limit) (hd : limit ≤ dst.length) :
    ∃ st', mbsnrtowcs dst (bs ++ b ++ rest) (bs.length + b.length) limit st
      = .ok ⟨.count cs.length, some (bs.length + b.length), cs ++ dst.drop cs.length, st'⟩ ∧
      (st'.progress = 0 ↔ b = []) := by
  obtain ⟨w, rfl⟩ := Nat.exists_eq_add_of_lt hl
  obtain ⟨st', h1, h2⟩ := decode_str h h0 st (b ++ rest) b.length (w + 1) hst
  have e2 : cs.length + w + 1 = cs.length + (w + 1) := by omega
  have hd1 : cs.length ≤ dst.length := by omega
  unfold mbsnrtowcs decodeWtranscode
  rw [e2, List.append_assoc, h2]
  rcases hb with rfl | hb
  · refine ⟨st', ?_, by simp [h1]⟩
    have : decodeLoop ([] ++ rest) ([] : List UInt8).length (w + 1) st'
        = .ok ⟨.inputExhausted, 0, [], st'⟩ := by
      cases rest <;> simp [decodeLoop, stopStatus, h1]
    rw [this]
    simp [ensure, storeAt, hd1]
  · obtain ⟨ds, h3, h4⟩ := decode_incomplete b [] st' rest w (Or.inl ⟨rfl, h1⟩) (by simpa using hb)
    refine ⟨ds, ?_, by simp [h4.progress, hb.1]⟩
    rw [h3]
    simp [ensure, storeAt, hd1]

/-- **C14, mbsnrtowcs, terminator or character limit** within the `nmc` bytes: as for mbsrtowcs. -/
theorem mbsnrtowcs_fits (dst : List Nat) (bs rest : List UInt8) (cs : List Nat) (limit nmc : Nat) (st : St)
    (hst : st.progress = 0) (h : EncodesStr bs cs) (h0 : 0 ∉ cs) (hl : cs.length < limit)
    (hd : limit ≤ dst.length) (hn : bs.length < nmc) :
    mbsnrtowcs dst (bs ++ 0 :: rest) nmc limit st
      = .ok ⟨.count cs.length, none, cs ++ 0 :: dst.drop (cs.length + 1), St.init⟩ := by
  obtain ⟨w, rfl⟩ := Nat.exists_eq_add_of_lt hl
  obtain ⟨n, rfl⟩ := Nat.exists_eq_add_of_lt hn
  obtain ⟨st', h1, h2⟩ := decode_str h h0 st (0 :: rest) (n + 1) (w + 1) hst
  unfold mbsnrtowcs decodeWtranscode
  have e : bs.length + n + 1 = bs.length + (n + 1) := by omega
  have e2 : cs.length + w + 1 = cs.length + (w + 1) := by omega
  have hd1 : cs.length ≤ dst.length := by omega
  have hd2 : cs.length + 1 ≤ dst.length := by omega
  have hd4 : cs.drop (cs.length + 1) = [] := List.drop_eq_nil_of_le (by omega)
  have hd3 : cs.length < cs.length + (w + 1) := by omega
  rw [e, e2, h2, decode_null rest _ w st' h1]
  simp [ensure, storeAt, hd1, hd2, hd4, hd3, List.drop_append, Nat.add_comm 1]

theorem mbsnrtowcs_limit (dst : List Nat) (bs bs' : List UInt8) (cs : List Nat) (nmc : Nat) (st : St)
    (hst : st.progress = 0) (h : EncodesStr bs cs) (h0 : 0 ∉ cs) (hl : 1 ≤ cs.length)
    (hd : cs.length ≤ dst.length) (hn : bs.length ≤ nmc) :
    ∃ st', st'.progress = 0 ∧ mbsnrtowcs dst (bs ++ bs') nmc cs.length st
      = .ok ⟨.count cs.length, some bs.length, cs ++ dst.drop cs.length, st'⟩ := by
  obtain ⟨n, rfl⟩ := Nat.exists_eq_add_of_le hn
  obtain ⟨st', h1, h2⟩ := decode_str h h0 st bs' n 0 hst
  refine ⟨st', h1, ?_⟩
  unfold mbsnrtowcs decodeWtranscode
  have hl' : cs.length ≠ 0 := by omega
  simp only [Nat.add_zero] at h2
  rw [h2, decodeLoop_zero_room]
  by_cases hn0 : n = 0 <;> simp [ensure, storeAt, hd, hl', stopStatus, h1, hn0]

/-! ### wcsrtombs, wcsnrtombs -/

/-- The encoding loop on encodable characters that fit, followed by anything. -/
theorem encode_str {bs : List UInt8} {cs : List Nat} (h : EncodesStr bs cs) : ∀ (h0 : 0 ∉ cs)
    (obj : List Nat) (n cap : Nat),
    encodeLoop (cs ++ obj) (cs.length + n) (bs.length + cap) = (do
      let r ← encodeLoop obj n cap
      return { r with committed := bs ++ r.committed, consumed := cs.length + r.consumed }) := by
  induction h with
  | nil =>
    intro _ obj n cap
    simp only [List.nil_append, List.length_nil, Nat.zero_add]
    cases encodeLoop obj n cap <;> rfl
  | @cons b c bs cs he _ ih =>
    intro h0 obj n cap
    simp only [List.mem_cons, not_or] at h0
    have hc : c ≠ 0 := fun h => h0.1 h.symm
    have hl := encodes_length b c he
    have henc := ((encode_iff b c).1 he).2
    have e1 : (b ++ bs).length + cap = (b.length - 1 + bs.length + cap) + 1 := by simp; omega
    have e2 : (c :: cs).length + n = cs.length + n + 1 := by simp; omega
    rw [e1, e2, List.cons_append, encodeLoop, if_neg hc, henc]
    have e3 : b.length ≤ b.length - 1 + bs.length + cap + 1 := by omega
    have e4 : b.length - 1 + bs.length + cap + 1 - b.length = bs.length + cap := by omega
    simp only [e3, if_true, e4, ih h0.2 obj n cap]
    cases encodeLoop obj n cap <;> simp
    omega

theorem drop_append_len {α} (a b : List α) : (a ++ b).drop a.length = b := by simp

/-- **C14, wcsnrtombs, the next character does not fit.** `cs` are the characters that fit (encoded `bs`); the
next character `c` needs more room than is left. Exactly `cs` is converted: the count is the length of `bs`,
`*wcsp` points to `c`, the first bytes of the destination are `bs` and nothing at or behind `limit` is touched. -/
theorem wcsnrtombs_cut (dst : List UInt8) (bs b : List UInt8) (cs rest : List Nat) (c nwc limit : Nat)
    (h : EncodesStr bs cs) (h0 : 0 ∉ cs) (hc : Encodes b c) (hc0 : c ≠ 0) (hn : cs.length < nwc)
    (h1 : bs.length ≤ limit) (h2 : limit < bs.length + b.length) (hd : limit ≤ dst.length) :
    ∃ dst', wcsnrtombs dst (cs ++ c :: rest) nwc limit St.init
      = .ok ⟨.count bs.length, some cs.length, dst', St.init⟩ ∧
      dst'.length = dst.length ∧ dst'.take bs.length = bs ∧ dst'.drop limit = dst.drop limit := by
  obtain ⟨n, rfl⟩ := Nat.exists_eq_add_of_lt hn
  obtain ⟨cap, rfl⟩ := Nat.exists_eq_add_of_le h1
  have hs := encode_str h h0 (c :: rest) (n + 1) cap
  have henc := ((encode_iff b c).1 hc).2
  unfold wcsnrtombs
  rw [Nat.add_assoc cs.length n 1, hs]
  cases cap with
  | zero =>
    have hb : bs.length ≤ dst.length := by omega
    simp only [encodeLoop, Nat.succ_ne_zero, if_false, Res.ok_bind, Res.pure_eq]
    refine ⟨bs ++ dst.drop bs.length, ?_, ?_, ?_, ?_⟩
    · simp [ensure, St.init, storeAt, hb]
    · simp; omega
    · simp
    · simp
  | succ cap =>
    have hno : ¬ b.length ≤ cap + 1 := by omega
    have hlen : bs.length + min (cap + 1) b.length ≤ dst.length := by omega
    simp only [encodeLoop, hc0, if_false, henc, hno, Res.ok_bind, Res.pure_eq, List.append_nil]
    refine ⟨bs ++ b.take (cap + 1) ++ dst.drop (bs.length + (cap + 1)), ?_, ?_, ?_, ?_⟩
    · have : min (cap + 1) b.length = cap + 1 := by omega
      rw [this] at hlen
      simp [ensure, St.init, storeAt, this, hlen]
    · simp; omega
    · simp
    · have hl : (bs ++ b.take (cap + 1)).length = bs.length + (cap + 1) := by simp; omega
      rw [← hl, drop_append_len]

/-- **C14, wcsnrtombs, the terminator is reached.** -/
theorem wcsnrtombs_fits (dst : List UInt8) (bs : List UInt8) (cs rest : List Nat) (nwc limit : Nat)
    (h : EncodesStr bs cs) (h0 : 0 ∉ cs) (hn : cs.length < nwc) (h1 : bs.length < limit)
    (hd : limit ≤ dst.length) :
    wcsnrtombs dst (cs ++ 0 :: rest) nwc limit St.init
      = .ok ⟨.count bs.length, none, bs ++ 0 :: dst.drop (bs.length + 1), St.init⟩ := by
  obtain ⟨n, rfl⟩ := Nat.exists_eq_add_of_lt hn
  obtain ⟨cap, rfl⟩ := Nat.exists_eq_add_of_lt h1
  have hs := encode_str h h0 (0 :: rest) (n + 1) (cap + 1)
  have hd1 : bs.length ≤ dst.length := by omega
  have hd2 : bs.length + 1 ≤ dst.length := by omega
  have hd4 : bs.drop (bs.length + 1) = [] := List.drop_eq_nil_of_le (by omega)
  unfold wcsnrtombs
  rw [Nat.add_assoc cs.length n 1, Nat.add_assoc bs.length cap 1, hs]
  simp [encodeLoop, ensure, St.init, storeAt, hd1, hd2, hd4, List.drop_append, Nat.add_comm 1]

/-- **C14, wcsnrtombs, the wide limit is reached.** -/
theorem wcsnrtombs_end (dst : List UInt8) (bs : List UInt8) (cs rest : List Nat) (limit : Nat)
    (h : EncodesStr bs cs) (h0 : 0 ∉ cs) (h1 : bs.length ≤ limit) (hd : limit ≤ dst.length) :
    wcsnrtombs dst (cs ++ rest) cs.length limit St.init
      = .ok ⟨.count bs.length, some cs.length, bs ++ dst.drop bs.length, St.init⟩ := by
  obtain ⟨cap, rfl⟩ := Nat.exists_eq_add_of_le h1
  have hs := encode_str h h0 rest 0 cap
  have hd1 : bs.length ≤ dst.length := by omega
  have : encodeLoop rest 0 cap = .ok ⟨.inputExhausted, [], [], 0⟩ := by
    cases cap <;> cases rest <;> simp [encodeLoop]
  simp only [Nat.add_zero] at hs
  unfold wcsnrtombs
  rw [hs, this]
  simp [ensure, St.init, storeAt, hd1]

/-- **C14, wcsrtombs, the terminator is reached.** -/
theorem wcsrtombs_fits (dst : List UInt8) (bs : List UInt8) (cs rest : List Nat) (limit : Nat)
    (h : EncodesStr bs cs) (h0 : 0 ∉ cs) (h1 : bs.length < limit) (hd : limit ≤ dst.length) :
    wcsrtombs dst (cs ++ 0 :: rest) limit St.init
      = .ok ⟨.count bs.length, none, bs ++ 0 :: dst.drop (bs.length + 1), St.init⟩ := by
  obtain ⟨cap, rfl⟩ := Nat.exists_eq_add_of_lt h1
  have hs := encode_str h h0 (0 :: rest) ((0 :: rest).length + 1) (cap + 1)
  have hd1 : bs.length ≤ dst.length := by omega
  have hd2 : bs.length + 1 ≤ dst.length := by omega
  have hd4 : bs.drop (bs.length + 1) = [] := List.drop_eq_nil_of_le (by omega)
  have e : (cs ++ 0 :: rest).length + 1 = cs.length + ((0 :: rest).length + 1) := by simp; omega
  unfold wcsrtombs
  rw [e, Nat.add_assoc bs.length cap 1, hs]
  simp [encodeLoop, ensure, St.init, storeAt, hd1, hd2, hd4, List.drop_append, Nat.add_comm 1]

/-- **C14, wcsrtombs, the characters `cs` fill the limit exactly.** Missing: the case that the next character does
not fit but some room is left, in which the code aborts, see `wcsrtombs_cut_violated`. -/
theorem wcsrtombs_limit_partial (dst : List UInt8) (bs : List UInt8) (cs rest : List Nat)
    (h : EncodesStr bs cs) (h0 : 0 ∉ cs) (hd : bs.length ≤ dst.length) :
    wcsrtombs dst (cs ++ rest) bs.length St.init
      = .ok ⟨.count bs.length, some cs.length, bs ++ dst.drop bs.length, St.init⟩ := by
  have hs := encode_str h h0 rest (rest.length + 1) 0
  have e : (cs ++ rest).length + 1 = cs.length + (rest.length + 1) := by simp; omega
  simp only [Nat.add_zero] at hs
  unfold wcsrtombs
  rw [e, hs]
  simp [encodeLoop, ensure, St.init, storeAt, hd]

/-- **C14 does not hold of wcsrtombs.** `wcsrtombs(dst, &L"é", 1, &st)` must convert nothing and return 0, as
`é` needs two bytes; the code aborts (wchar.cpp:220 asserts that the only remaining status is illegal_input). -/
theorem wcsrtombs_cut_violated :
    Encodes [0xC3, 0xA9] 0xE9 ∧ wcsrtombs [0, 0] [0xE9, 0] 1 St.init = .panic :=
  ⟨rfl, by decide⟩

theorem encodeLen_eq (obj : List Nat) : ∀ (n cap : Nat), 4 * n < cap →
    encodeLenLoop obj n = (do let r ← encodeLoop obj n cap; return (r.status, r.committed.length)) := by
  induction obj with
  | nil =>
    intro n cap h
    obtain ⟨cap, rfl⟩ : ∃ c, cap = c + 1 := ⟨cap - 1, by omega⟩
    cases n <;> simp [encodeLenLoop, encodeLoop]
  | cons c obj ih =>
    intro n cap h
    obtain ⟨cap, rfl⟩ : ∃ c, cap = c + 1 := ⟨cap - 1, by omega⟩
    cases n with
    | zero => simp [encodeLenLoop, encodeLoop]
    | succ n =>
      rw [encodeLenLoop, encodeLoop]
      by_cases hc : c = 0
      · simp [hc]
      · simp only [hc, if_false]
        cases henc : encode c with
        | none => simp
        | some bytes =>
          have hl := encode_length c bytes henc
          have h1 : bytes.length ≤ cap + 1 := by omega
          simp only [h1, if_true]
          rw [ih n (cap + 1 - bytes.length) (by omega)]
          cases encodeLoop obj n (cap + 1 - bytes.length) <;> simp
          omega

/-- **C14, length-only wcsnrtombs**: for every source, it returns what the storing form returns when the
destination is large enough. -/
theorem wcsnrtombs_len (wcs : List Nat) (nwc : Nat) (dst : List UInt8) (limit : Nat) (hl : 4 * nwc < limit)
    (r : Conv UInt8) (h : wcsnrtombs dst wcs nwc limit St.init = .ok r) :
    wcsnrtombsLen wcs nwc St.init = .ok r.ret := by
  unfold wcsnrtombs at h
  unfold wcsnrtombsLen
  rw [encodeLen_eq wcs nwc limit hl]
  have hne : ∀ (obj : List Nat) (n cap : Nat) (r : EncOut), 4 * n < cap → encodeLoop obj n cap = .ok r →
      r.status = .nullTerminator ∨ r.status = .illegalInput ∨ r.status = .inputExhausted := by
    intro obj
    induction obj with
    | nil =>
      intro n cap r h hr
      obtain ⟨cap, rfl⟩ : ∃ c, cap = c + 1 := ⟨cap - 1, by omega⟩
      cases n <;> simp [encodeLoop] at hr
      subst hr; simp
    | cons c obj ih =>
      intro n cap r h hr
      obtain ⟨cap, rfl⟩ : ∃ c, cap = c + 1 := ⟨cap - 1, by omega⟩
      cases n with
      | zero => simp [encodeLoop] at hr; subst hr; simp
      | succ n =>
        rw [encodeLoop] at hr
        by_cases hc : c = 0
        · simp [hc] at hr; subst hr; simp
        · simp only [hc, if_false] at hr
          cases henc : encode c with
          | none => rw [henc] at hr; simp at hr; subst hr; simp
          | some bytes =>
            have hl := encode_length c bytes henc
            have h1 : bytes.length ≤ cap + 1 := by omega
            simp only [henc, h1, if_true, Res.bind_eq_ok] at hr
            obtain ⟨r', h2, h3⟩ := hr
            simp at h3; subst h3
            exact ih n _ r' (by omega) h2
  cases hd : encodeLoop wcs nwc limit with
  | ub => simp [hd, ensure, St.init] at h
  | panic => simp [hd, ensure, St.init] at h
  | ok d =>
    rcases hne wcs nwc limit d hl hd with e | e | e <;>
    · simp only [hd, ensure, St.init, decide_true, if_true, Res.ok_bind, Res.pure_eq, e,
        Res.bind_eq_ok] at h ⊢
      obtain ⟨d1, _, h2⟩ := h
      first
        | (cases h2; rfl)
        | (split at h2
           · simp only [Res.bind_eq_ok] at h2; obtain ⟨d2, _, h3⟩ := h2; cases h3; rfl
           · cases h2; rfl)

/-- **C14, length-only wcsrtombs.** -/
theorem wcsrtombs_len (wcs : List Nat) (dst : List UInt8) (limit : Nat) (hl : 4 * (wcs.length + 1) < limit)
    (r : Conv UInt8) (h : wcsrtombs dst wcs limit St.init = .ok r) :
    wcsrtombsLen wcs St.init = .ok r.ret := by
  unfold wcsrtombs at h
  unfold wcsrtombsLen
  rw [encodeLen_eq wcs _ limit hl]
  have hne : ∀ (obj : List Nat) (n cap : Nat) (r : EncOut), obj.length < n → 4 * n < cap →
      encodeLoop obj n cap = .ok r → r.status = .nullTerminator ∨ r.status = .illegalInput := by
    intro obj
    induction obj with
    | nil =>
      intro n cap r hn h hr
      obtain ⟨cap, rfl⟩ : ∃ c, cap = c + 1 := ⟨cap - 1, by omega⟩
      obtain ⟨n, rfl⟩ : ∃ n', n = n' + 1 := ⟨n - 1, by simp at hn; omega⟩
      simp [encodeLoop] at hr
    | cons c obj ih =>
      intro n cap r hn h hr
      obtain ⟨cap, rfl⟩ : ∃ c, cap = c + 1 := ⟨cap - 1, by omega⟩
      obtain ⟨n, rfl⟩ : ∃ n', n = n' + 1 := ⟨n - 1, by simp at hn; omega⟩
      rw [encodeLoop] at hr
      by_cases hc : c = 0
      · simp [hc] at hr; subst hr; simp
      · simp only [hc, if_false] at hr
        cases henc : encode c with
        | none => rw [henc] at hr; simp at hr; subst hr; simp
        | some bytes =>
          have hl := encode_length c bytes henc
          have h1 : bytes.length ≤ cap + 1 := by omega
          simp only [henc, h1, if_true, Res.bind_eq_ok] at hr
          obtain ⟨r', h2, h3⟩ := hr
          simp at h3; subst h3
          exact ih n _ r' (by simp at hn; omega) (by omega) h2
  cases hd : encodeLoop wcs (wcs.length + 1) limit with
  | ub => simp [hd, ensure, St.init] at h
  | panic => simp [hd, ensure, St.init] at h
  | ok d =>
    rcases hne wcs _ limit d (by omega) hl hd with e | e <;>
    · simp only [hd, ensure, St.init, decide_true, if_true, Res.ok_bind, Res.pure_eq, e,
        Res.bind_eq_ok] at h ⊢
      obtain ⟨d1, _, h2⟩ := h
      first
        | (cases h2; rfl)
        | (split at h2
           · simp only [Res.bind_eq_ok] at h2; obtain ⟨d2, _, h3⟩ := h2; cases h3; rfl
           · cases h2; rfl)

/-- The hypotheses of the theorems above are met: `"é€"` with room for four bytes is cut after `é`. -/
example : EncodesStr [0xC3, 0xA9] [0xE9] ∧ Encodes [0xE2, 0x82, 0xAC] 0x20AC :=
  ⟨.cons (b := [0xC3, 0xA9]) rfl .nil, rfl⟩
example : wcsnrtombs [1, 2, 3, 4, 5] [0xE9, 0x20AC, 0] 9 4 St.init
    = .ok ⟨.count 2, some 1, [0xC3, 0xA9, 0xE2, 0x82, 5], St.init⟩ := by decide
example : mbsrtowcs [1, 2, 3] [0xC3, 0xA9, 0x41, 0] 3 St.init
    = .ok ⟨.count 2, none, [0xE9, 0x41, 0], St.init⟩ := by decide
example : Bad [0xC0, 0xAF] := by
  refine ⟨by simp, ?_⟩
  intro k c
  match k with
  | 0 => simp [Encodes, scalarN]
  | 1 => simp [Encodes, scalarN]
  | k + 2 => simp [Encodes, scalarN]

end Mlibc.Utf8
