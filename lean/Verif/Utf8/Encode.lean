import Verif.Utf8.Decode
/-
C11: encoding and the round trip.
-/
set_option linter.unusedSimpArgs false
namespace Mlibc.Utf8
open Mlibc

theorem or_C0 (x : Nat) (h : x < 64) : 0xC0 ||| x = 0xC0 + x := (Nat.shiftLeft_add_eq_or_of_lt (i := 6) h 3).symm
theorem or_80 (x : Nat) (h : x < 64) : 0x80 ||| x = 0x80 + x := (Nat.shiftLeft_add_eq_or_of_lt (i := 6) h 2).symm
theorem or_E0 (x : Nat) (h : x < 16) : 0xE0 ||| x = 0xE0 + x := (Nat.shiftLeft_add_eq_or_of_lt (i := 4) h 14).symm
theorem or_F0 (x : Nat) (h : x < 8) : 0xF0 ||| x = 0xF0 + x := (Nat.shiftLeft_add_eq_or_of_lt (i := 3) h 30).symm

/-- The bytes of `encode` as numbers. -/
def encN (c : Nat) : Option (List Nat) :=
  if c ≤ 0x7F then some [c]
  else if c ≤ 0x7FF then some [0xC0 + c / 64, 0x80 + c % 64]
  else if c ≤ 0xFFFF then some [0xE0 + c / 4096, 0x80 + c / 64 % 64, 0x80 + c % 64]
  else if c ≤ 0x10FFFF then
    some [0xF0 + c / 262144, 0x80 + c / 4096 % 64, 0x80 + c / 64 % 64, 0x80 + c % 64]
  else none

theorem encode_eq (c : Nat) : (encode c).map (·.map UInt8.toNat) = encN c := by
  unfold encode encN
  have hm : ∀ v : Nat, (UInt8.ofNat (0x80 ||| (v &&& 0x3F))).toNat = 0x80 + v % 64 := by
    intro v
    rw [and_3F, or_80 _ (Nat.mod_lt _ (by omega))]
    simp; omega
  simp only [hm]
  have hs : ∀ v k, v >>> k = v / 2 ^ k := fun v k => Nat.shiftRight_eq_div_pow v k
  split
  · simp; omega
  · split
    · simp only [Option.map_some, List.map_cons, List.map_nil, hm, hs]
      rw [or_C0 _ (by omega)]
      simp; omega
    · split
      · simp only [Option.map_some, List.map_cons, List.map_nil, hm, hs]
        rw [or_E0 _ (by omega)]
        simp; omega
      · split
        · simp only [Option.map_some, List.map_cons, List.map_nil, hm, hs]
          rw [or_F0 _ (by omega)]
          simp; omega
        · simp

theorem scalarN_encN (l : List Nat) (c : Nat) : scalarN l = some c ↔ isScalar c ∧ encN c = some l := by
  unfold isScalar
  constructor
  · intro h
    match l with
    | [] => simp [scalarN] at h
    | [a] =>
      simp only [scalarN, Option.ite_none_right_eq_some, Option.some.injEq] at h
      obtain ⟨h, rfl⟩ := h
      unfold encN
      rw [if_pos h]
      exact ⟨by omega, rfl⟩
    | [a, b] =>
      simp only [scalarN, isCont, Option.ite_none_right_eq_some, Option.some.injEq] at h
      obtain ⟨h, rfl⟩ := h
      unfold encN
      rw [if_neg (by omega), if_pos (by omega)]
      refine ⟨by omega, ?_⟩
      simp; omega
    | [a, b, d] =>
      simp only [scalarN, isCont, Option.ite_none_right_eq_some, Option.some.injEq] at h
      obtain ⟨h, rfl⟩ := h
      have h1 : 0xE0 ≤ a := by omega
      have h2 : 0x80 ≤ b := by omega
      have h3 : 0x80 ≤ d := by omega
      unfold encN
      rw [if_neg (by omega), if_neg (by omega), if_pos (by omega)]
      refine ⟨by omega, ?_⟩
      have h4 : b ≤ 0xBF := by omega
      have h5 : d ≤ 0xBF := by omega
      clear h
      simp; omega
    | [a, b, d, e] =>
      simp only [scalarN, isCont, Option.ite_none_right_eq_some, Option.some.injEq] at h
      obtain ⟨h, rfl⟩ := h
      have h1 : 0xF0 ≤ a := by omega
      have h2 : 0x80 ≤ b := by omega
      have h3 : 0x80 ≤ d := by omega
      have h3 : 0x80 ≤ e := by omega
      unfold encN
      rw [if_neg (by omega), if_neg (by omega), if_neg (by omega), if_pos (by omega)]
      refine ⟨by omega, ?_⟩
      have h4 : b ≤ 0xBF := by omega
      have h5 : d ≤ 0xBF := by omega
      have h5 : e ≤ 0xBF := by omega
      clear h
      simp; omega
    | _ :: _ :: _ :: _ :: _ :: _ => simp [scalarN] at h
  · rintro ⟨hs, he⟩
    unfold encN at he
    split at he
    · simp only [Option.some.injEq] at he; subst he
      simp only [scalarN]; rw [if_pos (by omega)]
    · split at he
      · simp only [Option.some.injEq] at he; subst he
        simp only [scalarN, isCont]; rw [if_pos (by omega)]; simp only [Option.some.injEq]; omega
      · split at he
        · simp only [Option.some.injEq] at he; subst he
          simp only [scalarN, isCont]; rw [if_pos (by omega)]; simp only [Option.some.injEq]; omega
        · split at he
          · simp only [Option.some.injEq] at he; subst he
            simp only [scalarN, isCont]; rw [if_pos (by omega)]; simp only [Option.some.injEq]; omega
          · simp at he

theorem map_toNat_inj {a b : List UInt8} (h : a.map UInt8.toNat = b.map UInt8.toNat) : a = b :=
  List.map_inj_right (fun _ _ h => UInt8.toNat.inj h) |>.1 h

/-- The encoder produces the unique well-formed encoding of every scalar value. -/
theorem encode_iff (bs : List UInt8) (c : Nat) : Encodes bs c ↔ isScalar c ∧ encode c = some bs := by
  unfold Encodes
  rw [scalarN_encN, ← encode_eq]
  constructor
  · rintro ⟨h, he⟩
    refine ⟨h, ?_⟩
    rw [Option.map_eq_some_iff] at he
    obtain ⟨x, hx, hm⟩ := he
    rw [hx, map_toNat_inj hm]
  · rintro ⟨h, he⟩
    exact ⟨h, by rw [he]; rfl⟩

theorem encode_total (c : Nat) (h : isScalar c) : ∃ bs, encode c = some bs ∧ Encodes bs c := by
  have : ∃ bs, encode c = some bs := by
    unfold isScalar at h
    unfold encode
    split
    · exact ⟨_, rfl⟩
    · split
      · exact ⟨_, rfl⟩
      · split
        · exact ⟨_, rfl⟩
        · rw [if_pos (by omega)]; exact ⟨_, rfl⟩
  obtain ⟨bs, hb⟩ := this
  exact ⟨bs, hb, (encode_iff bs c).2 ⟨h, hb⟩⟩

theorem encodes_length (bs : List UInt8) (c : Nat) (h : Encodes bs c) : 1 ≤ bs.length ∧ bs.length ≤ 4 := by
  unfold Encodes at h
  match bs with
  | [] => simp [scalarN] at h
  | [_] => simp
  | [_, _] => simp
  | [_, _, _] => simp
  | [_, _, _, _] => simp
  | _ :: _ :: _ :: _ :: _ :: _ => simp [scalarN] at h

theorem encode_length (c : Nat) (bs : List UInt8) (h : encode c = some bs) : 1 ≤ bs.length ∧ bs.length ≤ 4 := by
  unfold encode at h
  split at h
  · simp at h; subst h; simp
  · split at h
    · simp at h; subst h; simp
    · split at h
      · simp at h; subst h; simp
      · split at h
        · simp at h; subst h; simp
        · simp at h

/-- **C11, encoding.** wcrtomb turns every scalar value into its well-formed encoding (1 to 4 bytes) at the
start of the destination, leaves the rest of the destination alone, and returns the number of bytes.
(The destination has at least MB_LEN_MAX = 4 bytes, as the C standard demands.) -/
theorem wcrtomb_encodes (dst : List UInt8) (hd : 4 ≤ dst.length) (c : Nat) (hc : isScalar c) (st : St)
    (hst : st.progress = 0) :
    ∃ bs, Encodes bs c ∧ 1 ≤ bs.length ∧ bs.length ≤ 4 ∧
      wcrtomb dst c st = .ok (.count bs.length, bs ++ dst.drop bs.length, St.init) := by
  obtain ⟨bs, hb, he⟩ := encode_total c hc
  have hl := encodes_length bs c he
  refine ⟨bs, he, hl.1, hl.2, ?_⟩
  unfold wcrtomb encodeLoop
  by_cases h0 : c = 0
  · subst h0
    have : bs = [0] := encodes_zero bs he
    subst this
    have hd' : 0 < dst.length := by omega
    have hd'' : 1 ≤ dst.length := by omega
    simp [ensure, hst, storeAt, hd', hd'']
  · have hl4 : bs.length ≤ 3 + 1 := hl.2
    have hl5 : bs.length ≤ dst.length := by omega
    simp only [h0, if_false, hb, hl4, if_true]
    have : encodeLoop [] 0 (3 + 1 - bs.length) = .ok ⟨.inputExhausted, [], [], 0⟩ := by
      cases h : 3 + 1 - bs.length <;> simp [encodeLoop]
    rw [this]
    simp [ensure, hst, storeAt, hl5]

/-- **C11, round trip.** What wcrtomb wrote for a scalar value `c ≠ 0`, followed by anything, is read back
by mbrtowc as `c`, consuming exactly the bytes wcrtomb produced. -/
theorem utf8_roundtrip (dst : List UInt8) (hd : 4 ≤ dst.length) (c : Nat) (hc : isScalar c) (h0 : c ≠ 0)
    (n : Nat) (hn : 4 ≤ n) :
    ∃ k out st', wcrtomb dst c St.init = .ok (.count k, out, St.init) ∧
      mbrtowc out n St.init = .ok (.count k, some c, st') ∧ st'.progress = 0 := by
  obtain ⟨bs, he, h1, h4, hw⟩ := wcrtomb_encodes dst hd c hc St.init rfl
  obtain ⟨st', hm, hp⟩ := mbrtowc_accepts bs (dst.drop bs.length) c n St.init rfl he h0 (by omega)
  exact ⟨bs.length, _, st', hw, hm, hp⟩

/-- The null character is written as one 0 byte and read back as the null character. -/
theorem utf8_roundtrip_null (dst : List UInt8) (hd : 4 ≤ dst.length) (n : Nat) (hn : 1 ≤ n) :
    ∃ out, wcrtomb dst 0 St.init = .ok (.count 1, out, St.init) ∧
      mbrtowc out n St.init = .ok (.count 0, some 0, St.init) := by
  obtain ⟨bs, he, _, _, hw⟩ := wcrtomb_encodes dst hd 0 (Or.inl (by omega)) St.init rfl
  have := encodes_zero bs he
  subst this
  exact ⟨_, hw, mbrtowc_null _ n St.init rfl hn⟩

/-- **C11, self-synchronisation.** No encoding is a proper prefix of another, and the encoding of a
character is unique. -/
theorem encodings_prefix_free (a b : List UInt8) (c d : Nat) (ha : Encodes a c) (hb : Encodes b d)
    (h : a <+: b) : a = b ∧ c = d := by
  obtain ⟨q, rfl⟩ := h
  by_cases hq : q = []
  · subst hq
    rw [List.append_nil] at hb
    unfold Encodes at ha hb
    rw [ha] at hb
    exact ⟨by simp, Option.some.inj hb⟩
  · have hne : a ≠ [] := by rintro rfl; simp [Encodes, scalarN] at ha
    exact absurd ha ((incomplete_pend a ⟨hne, q, d, hq, hb⟩).2 c)

theorem encodings_unique (a b : List UInt8) (c : Nat) (ha : Encodes a c) (hb : Encodes b c) : a = b := by
  have h1 := ((encode_iff a c).1 ha).2
  have h2 := ((encode_iff b c).1 hb).2
  rw [h1] at h2
  exact Option.some.inj h2

example : isScalar 0x20AC := Or.inl (by omega)
example : wcrtomb [1, 2, 3, 4, 5] 0x20AC St.init = .ok (.count 3, [0xE2, 0x82, 0xAC, 4, 5], St.init) := by decide

/-- Outside the quantifier of C11: a surrogate is not a character and wcrtomb must fail with EILSEQ; the
code encodes it, into bytes its own decoder rejects. -/
theorem wcrtomb_surrogate_violated :
    ¬ isScalar 0xD800 ∧
    wcrtomb [0, 0, 0, 0] 0xD800 St.init = .ok (.count 3, [0xED, 0xA0, 0x80, 0], St.init) ∧
    mbrtowc [0xED, 0xA0, 0x80, 0] 4 St.init = .ok (.eilseq, none, St.init) := by
  refine ⟨by unfold isScalar; omega, by decide, by decide⟩

end Mlibc.Utf8
