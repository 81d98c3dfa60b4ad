import Verif.Str.LenCmp
/- C06 and C07: substring and character search. -/
set_option linter.unusedSectionVars false
set_option linter.unusedSimpArgs false
namespace Mlibc.Str
open Mlibc

variable {α : Type} [DecidableEq α] [OfNat α 0]

theorem CStr.cons_inv {c : α} {buf s : List α} (h : CStr (c :: buf) s) :
    (c = 0 ∧ s = []) ∨ (c ≠ 0 ∧ ∃ s', s = c :: s' ∧ CStr buf s') := by
  obtain ⟨h0, rest, h⟩ := h
  match s with
  | [] => simp at h; exact .inl ⟨h.1, rfl⟩
  | d :: s' =>
    simp only [List.mem_cons, not_or] at h0
    simp only [List.cons_append, List.cons.injEq] at h
    obtain ⟨rfl, rfl⟩ := h
    exact .inr ⟨Ne.symm h0.1, s', rfl, h0.2, rest, rfl⟩

theorem not_cstr_nil {s : List α} : ¬ CStr ([] : List α) s := by
  rintro ⟨_, rest, h⟩; simp at h

theorem FirstOcc.zero {s p : List α} (h : p <+: s) : FirstOcc s p 0 :=
  ⟨by omega, by simpa using h, by intro j hj; omega⟩

theorem FirstOcc.succ {c : α} {s p : List α} {i : Nat} (h0 : ¬ p <+: c :: s) (h : FirstOcc s p i) :
    FirstOcc (c :: s) p (i + 1) := by
  obtain ⟨h1, h2, h3⟩ := h
  refine ⟨by simpa using h1, by simpa using h2, ?_⟩
  intro j hj
  match j with
  | 0 => simpa using h0
  | j + 1 => simpa using h3 j (by omega)

/-! ### strstr -/

theorem strstrMatch_ok (s' pat' s p : List α) (hs : CStr s' s) (hp : CStr pat' p) :
    ∃ b, strstrMatch s' pat' = .ok b ∧ (b = true ↔ p <+: s) := by
  induction p generalizing s' pat' s with
  | nil =>
    obtain ⟨_, r, rfl⟩ := hp
    exact ⟨true, by unfold strstrMatch; simp, by simp⟩
  | cons d p ih =>
    match pat' with
    | [] => exact absurd hp not_cstr_nil
    | q :: pat' =>
      rcases hp.cons_inv with ⟨rfl, h⟩ | ⟨hq, p', h, hp'⟩
      · simp at h
      · obtain ⟨rfl, rfl⟩ : d = q ∧ p = p' := by simpa using h
        match s' with
        | [] => exact absurd hs not_cstr_nil
        | c :: s' =>
          rcases hs.cons_inv with ⟨rfl, rfl⟩ | ⟨hc, s2, rfl, hs2⟩
          · exact ⟨false, by simp [strstrMatch, hq], by simp⟩
          · by_cases hcd : c = d
            · subst hcd
              obtain ⟨b, e, hb⟩ := ih s' pat' s2 hs2 hp'
              exact ⟨b, by simp [strstrMatch, hc, e], by rw [hb]; simp [List.cons_prefix_cons]⟩
            · exact ⟨false, by simp [strstrMatch, hq, hcd], by simp [List.cons_prefix_cons, Ne.symm hcd]⟩

theorem strstrLoop_ok (s' pat' s p : List α) (hs : CStr s' s) (hp : CStr pat' p) (hne : p ≠ []) :
    (∃ i, strstrLoop s' pat' = .ok (some i) ∧ FirstOcc s p i) ∨
    (strstrLoop s' pat' = .ok none ∧ ¬ p <:+: s) := by
  induction s' generalizing s with
  | nil => exact absurd hs not_cstr_nil
  | cons c s' ih =>
    rcases hs.cons_inv with ⟨rfl, rfl⟩ | ⟨hc, s2, rfl, hs2⟩
    · right; exact ⟨by simp [strstrLoop], by simpa using hne⟩
    · obtain ⟨b, e, hb⟩ := strstrMatch_ok (c :: s') pat' (c :: s2) p hs hp
      cases b with
      | true =>
        left; exact ⟨0, by simp [strstrLoop, hc, e], .zero (hb.1 rfl)⟩
      | false =>
        have hnp : ¬ p <+: c :: s2 := fun h => by simpa using hb.2 h
        rcases ih s2 hs2 with ⟨i, e', ho⟩ | ⟨e', hno⟩
        · left; exact ⟨i + 1, by simp [strstrLoop, hc, e, e'], ho.succ hnp⟩
        · right
          refine ⟨by simp [strstrLoop, hc, e, e'], ?_⟩
          rw [List.infix_cons_iff]; simp [hnp, hno]

/-- C06. `strstr` returns the first occurrence of the pattern, NULL iff there is none. -/
theorem strstr_first (s' pat' s p : List α) (hs : CStr s' s) (hp : CStr pat' p) :
    (∃ i, strstr s' pat' = .ok (some i) ∧ FirstOcc s p i) ∨
    (strstr s' pat' = .ok none ∧ ¬ p <:+: s) := by
  match pat' with
  | [] => exact absurd hp not_cstr_nil
  | q :: pat' =>
    rcases hp.cons_inv with ⟨rfl, rfl⟩ | ⟨hq, p', rfl, hp'⟩
    · left; exact ⟨0, by simp [strstr, rd], .zero (by simp)⟩
    · have := strstrLoop_ok s' (q :: pat') s (q :: p') hs hp (by simp)
      have e : strstr s' (q :: pat') = strstrLoop s' (q :: pat') := by simp [strstr, rd, hq]
      rwa [e]

example : strstr ([97, 97, 98, 97, 97, 99, 0] : List UInt8) [97, 97, 99, 0] = .ok (some 3) := by decide
example := strstr_first ([97, 97, 98, 0] : List UInt8) [97, 98, 0] [97, 97, 98] [97, 98]
  ⟨by decide, [], rfl⟩ ⟨by decide, [], rfl⟩

/-! ### wcsstr -/

theorem wcsstrMatch_ok (s' pat' s p : List α) (hs : CStr s' s) (hp : CStr pat' p) :
    ∃ b, wcsstrMatch s' pat' = .ok b ∧ (b = true ↔ p <+: s) := by
  induction p generalizing s' pat' s with
  | nil =>
    obtain ⟨_, r, rfl⟩ := hp
    exact ⟨true, by unfold wcsstrMatch; simp, by simp⟩
  | cons d p ih =>
    match pat' with
    | [] => exact absurd hp not_cstr_nil
    | q :: pat' =>
      rcases hp.cons_inv with ⟨rfl, h⟩ | ⟨hq, p', h, hp'⟩
      · simp at h
      · obtain ⟨rfl, rfl⟩ : d = q ∧ p = p' := by simpa using h
        match s' with
        | [] => exact absurd hs not_cstr_nil
        | c :: s' =>
          rcases hs.cons_inv with ⟨rfl, rfl⟩ | ⟨hc, s2, rfl, hs2⟩
          · exact ⟨false, by simp [wcsstrMatch, hq, Ne.symm hq], by simp⟩
          · by_cases hcd : c = d
            · subst hcd
              obtain ⟨b, e, hb⟩ := ih s' pat' s2 hs2 hp'
              exact ⟨b, by simp [wcsstrMatch, hc, e], by rw [hb]; simp [List.cons_prefix_cons]⟩
            · exact ⟨false, by simp [wcsstrMatch, hq, hcd], by simp [List.cons_prefix_cons, Ne.symm hcd]⟩

/-- C06 (finding). `wcsstr(L"", L"")` returns NULL although the empty string occurs at offset 0. -/
theorem wcsstr_empty_violated :
    wcsstr ([0] : List Int32) [0] = .ok none ∧ CStr ([0] : List Int32) [] ∧ FirstOcc ([] : List Int32) [] 0 :=
  ⟨by decide, ⟨by decide, [], rfl⟩, .zero (by simp)⟩

/-- C06. `wcsstr` finds the first occurrence, NULL iff there is none, unless haystack and needle are
both empty (`wcsstr_empty_violated`). -/
theorem wcsstr_first_partial (s' pat' s p : List α) (hs : CStr s' s) (hp : CStr pat' p)
    (hne : s ≠ [] ∨ p ≠ []) :
    (∃ i, wcsstr s' pat' = .ok (some i) ∧ FirstOcc s p i) ∨
    (wcsstr s' pat' = .ok none ∧ ¬ p <:+: s) := by
  by_cases hpe : p = []
  · subst hpe
    have hs0 : s ≠ [] := by simpa using hne
    match s' with
    | [] => exact absurd hs not_cstr_nil
    | c :: s' =>
      rcases hs.cons_inv with ⟨rfl, rfl⟩ | ⟨hc, s2, rfl, hs2⟩
      · exact absurd rfl hs0
      · obtain ⟨_, r, rfl⟩ := hp
        left; exact ⟨0, by simp [wcsstr, hc, wcsstrMatch], .zero (by simp)⟩
  · clear hne
    induction s' generalizing s with
    | nil => exact absurd hs not_cstr_nil
    | cons c s' ih =>
      rcases hs.cons_inv with ⟨rfl, rfl⟩ | ⟨hc, s2, rfl, hs2⟩
      · right; exact ⟨by simp [wcsstr], by simpa using hpe⟩
      · obtain ⟨b, e, hb⟩ := wcsstrMatch_ok (c :: s') pat' (c :: s2) p hs hp
        cases b with
        | true =>
          left; exact ⟨0, by simp [wcsstr, hc, e], .zero (hb.1 rfl)⟩
        | false =>
          have hnp : ¬ p <+: c :: s2 := fun h => by simpa using hb.2 h
          rcases ih s2 hs2 with ⟨i, e', ho⟩ | ⟨e', hno⟩
          · left; exact ⟨i + 1, by simp [wcsstr, hc, e, e'], ho.succ hnp⟩
          · right
            refine ⟨by simp [wcsstr, hc, e, e'], ?_⟩
            rw [List.infix_cons_iff]; simp [hnp, hno]

example : wcsstr ([97, 97, 8364, 0] : List Int32) [97, 8364, 0] = .ok (some 1) := by decide

/-! ### memmem -/

theorem memmemMatch_ok (hs : List α) (k : Nat) (nd : List α) (n : Nat)
    (h1 : k ≤ hs.length) (h2 : n ≤ nd.length) :
    ∃ b, memmemMatch hs k nd n = .ok b ∧ (b = true ↔ nd.take n <+: hs.take k) := by
  induction n generalizing hs k nd with
  | zero => exact ⟨true, by unfold memmemMatch; rfl, by simp⟩
  | succ n ih =>
    match nd, h2 with
    | p :: nd, h2 =>
      match k with
      | 0 => exact ⟨false, by simp [memmemMatch], by simp⟩
      | k + 1 =>
        match hs, h1 with
        | h :: hs, h1 =>
          simp only [List.length_cons, Nat.add_le_add_iff_right] at h1 h2
          by_cases hp : h = p
          · subst hp
            obtain ⟨b, e, hb⟩ := ih hs k nd h1 h2
            exact ⟨b, by simp [memmemMatch, e], by rw [hb]; simp [List.cons_prefix_cons]⟩
          · exact ⟨false, by simp [memmemMatch, hp], by simp [List.cons_prefix_cons, Ne.symm hp]⟩

/-- C06 (finding). `memmem(h, 0, n, 0)` returns NULL although the empty needle occurs at offset 0. -/
theorem memmem_empty_violated :
    memmem ([1] : List UInt8) 0 [2] 0 = .ok none ∧ FirstOcc (([1] : List UInt8).take 0) ([2].take 0) 0 :=
  ⟨by decide, .zero (by simp)⟩

/-- C06. `memmem` finds the first occurrence and never reads outside the two ranges, unless both are
empty (`memmem_empty_violated`). -/
theorem memmem_first_partial (hs nd : List α) (k n : Nat) (h1 : k ≤ hs.length) (h2 : n ≤ nd.length)
    (hne : k ≠ 0 ∨ n ≠ 0) :
    (∃ i, memmem hs k nd n = .ok (some i) ∧ FirstOcc (hs.take k) (nd.take n) i) ∨
    (memmem hs k nd n = .ok none ∧ ¬ nd.take n <:+: hs.take k) := by
  induction k generalizing hs with
  | zero =>
    right
    refine ⟨by simp [memmem], ?_⟩
    have : nd.take n ≠ [] := by
      intro e
      have := congrArg List.length e
      simp at this
      rcases hne with h | h
      · exact h rfl
      · rcases this with h' | h'
        · exact h h'
        · subst h'; simp at h2; exact h h2
    simpa using this
  | succ k ih =>
    match hs, h1 with
    | h :: hs, h1 =>
      simp only [List.length_cons, Nat.add_le_add_iff_right] at h1
      obtain ⟨b, e, hb⟩ := memmemMatch_ok (h :: hs) (k + 1) nd n (by simpa using h1) h2
      cases b with
      | true => left; exact ⟨0, by simp [memmem, e], .zero (hb.1 rfl)⟩
      | false =>
        have hnp : ¬ nd.take n <+: h :: hs.take k := fun h => by simpa using hb.2 (by simpa using h)
        have hn0 : n ≠ 0 := by rintro rfl; simp at hnp
        rcases ih hs h1 (.inr hn0) with ⟨i, e', ho⟩ | ⟨e', hno⟩
        · left; exact ⟨i + 1, by simp [memmem, e, e'], by simpa using ho.succ hnp⟩
        · right
          refine ⟨by simp [memmem, e, e'], ?_⟩
          rw [List.take_succ_cons, List.infix_cons_iff]; simp [hnp, hno]

example : memmem ([0, 1, 0, 1, 2] : List UInt8) 5 [0, 1, 2] 3 = .ok (some 2) := by decide

/-! ### strcasestr -/

theorem strncasecmp_zero (low : UInt8 → UInt8) (hlow : ∀ c, low c = 0 ↔ c = 0)
    (s' pat' s p : List UInt8) (hs : CStr s' s) (hp : CStr pat' p) :
    ∃ r, strncasecmp low s' pat' p.length = .ok r ∧ (r = 0 ↔ p.map low <+: s.map low) := by
  obtain ⟨h0s, rs, rfl⟩ := hs
  obtain ⟨h0p, rp, rfl⟩ := hp
  have hps : NStr p.length (p ++ 0 :: rp) p := ⟨h0p, .inr ⟨rfl, 0 :: rp, rfl⟩⟩
  by_cases hl : s.length < p.length
  · obtain ⟨r, e, hr⟩ := strncasecmp_sign low hlow p.length _ _ s p
      ⟨h0s, .inl ⟨hl, rs, rfl⟩⟩ hps
    refine ⟨r, e, ?_⟩
    rw [hr.1]
    constructor
    · intro h; have := congrArg List.length h; simp at this; omega
    · intro h; have := h.length_le; simp at this; omega
  · obtain ⟨r, e, hr⟩ := strncasecmp_sign low hlow p.length (s ++ 0 :: rs) _ (s.take p.length) p
      ⟨fun h => h0s (List.mem_of_mem_take h), .inr ⟨by simp; omega, s.drop p.length ++ 0 :: rs,
        by rw [← List.append_assoc, List.take_append_drop]⟩⟩ hps
    refine ⟨r, e, ?_⟩
    rw [hr.1, List.prefix_iff_eq_take, List.length_map, ← List.map_take]
    exact ⟨Eq.symm, Eq.symm⟩

/-- C06 (finding). `strcasestr("", "")` returns NULL. -/
theorem strcasestr_empty_violated :
    strcasestr id [0] [0] = .ok none ∧ FirstOcc ([] : List UInt8) [] 0 :=
  ⟨by decide, .zero (by simp)⟩

/-- C06. `strcasestr` finds the first occurrence up to case, unless both strings are empty. -/
theorem strcasestr_first_partial (low : UInt8 → UInt8) (hlow : ∀ c, low c = 0 ↔ c = 0)
    (s' pat' s p : List UInt8) (hs : CStr s' s) (hp : CStr pat' p) (hne : s ≠ [] ∨ p ≠ []) :
    (∃ i, strcasestr low s' pat' = .ok (some i) ∧ FirstOcc (s.map low) (p.map low) i) ∨
    (strcasestr low s' pat' = .ok none ∧ ¬ p.map low <:+: s.map low) := by
  have e0 : strcasestr low s' pat' = strcasestrLoop low pat' p.length s' := by
    simp [strcasestr, strlen_exact pat' p hp]
  rw [e0]
  induction s' generalizing s with
  | nil => exact absurd hs not_cstr_nil
  | cons c s' ih =>
    rcases hs.cons_inv with ⟨rfl, rfl⟩ | ⟨hc, s2, rfl, hs2⟩
    · right; exact ⟨by simp [strcasestrLoop], by simpa using hne⟩
    · obtain ⟨r, e, hr⟩ := strncasecmp_zero low hlow (c :: s') pat' (c :: s2) p hs hp
      by_cases h0 : r = 0
      · left; exact ⟨0, by simp [strcasestrLoop, hc, e, h0], .zero (hr.1 h0)⟩
      · have hnp : ¬ p.map low <+: low c :: s2.map low := fun h => h0 (hr.2 (by simpa using h))
        have hpne : p ≠ [] := by rintro rfl; simp at hnp
        rcases ih s2 hs2 (.inr hpne) (by simp [strcasestr, strlen_exact pat' p hp]) with ⟨i, e', ho⟩ | ⟨e', hno⟩
        · left; exact ⟨i + 1, by simp [strcasestrLoop, hc, e, e', h0], by simpa using ho.succ hnp⟩
        · right
          refine ⟨by simp [strcasestrLoop, hc, e, e', h0], ?_⟩
          rw [List.map_cons, List.infix_cons_iff]; simp [hnp, hno]

/-- A concrete `tolower` for the examples (ASCII). -/
def asciiLower (c : UInt8) : UInt8 := if 65 ≤ c ∧ c ≤ 90 then c + 32 else c
theorem asciiLower_zero : ∀ c, asciiLower c = 0 ↔ c = 0 := by
  have : ∀ i : Fin 256, asciiLower (UInt8.ofFin i) = 0 ↔ UInt8.ofFin i = 0 := by decide +kernel
  intro c; simpa using this c.toFin
example : strcasestr asciiLower [97, 66, 67, 0] [98, 99, 0] = .ok (some 1) := by decide +kernel
example := strcasestr_first_partial asciiLower asciiLower_zero _ _ [97, 66, 67] [98, 99] ⟨by decide, [], rfl⟩
    ⟨by decide, [], rfl⟩ (by simp)

/-! ### C07: character search -/

theorem FirstIdx.zero {q : α → Prop} {c : α} {s : List α} (h : q c) : FirstIdx q (c :: s) 0 :=
  ⟨⟨c, rfl, h⟩, by intro j hj; omega⟩

theorem FirstIdx.succ {q : α → Prop} {c : α} {s : List α} {i : Nat} (h0 : ¬ q c)
    (h : FirstIdx q s i) : FirstIdx q (c :: s) (i + 1) := by
  obtain ⟨⟨d, e, hq⟩, h2⟩ := h
  refine ⟨⟨d, by simpa using e, hq⟩, ?_⟩
  intro j hj x hx
  match j with
  | 0 => simp at hx; subst hx; exact h0
  | j + 1 => exact h2 j (by omega) x (by simpa using hx)

/-- C07. `memchr`/`wmemchr`: first occurrence among the first `n` characters; reads no further than the
found character. -/
theorem memchr_first (s : List α) (c : α) (n : Nat) (h : n ≤ s.length) :
    (∃ i, memchr s c n = .ok (some i) ∧ FirstIdx (· = c) (s.take n) i) ∨
    (memchr s c n = .ok none ∧ c ∉ s.take n) := by
  induction n generalizing s with
  | zero => right; exact ⟨by unfold memchr; rfl, by simp⟩
  | succ n ih =>
    match s, h with
    | b :: s, h =>
      simp only [List.length_cons, Nat.add_le_add_iff_right] at h
      by_cases hb : b = c
      · left; exact ⟨0, by simp [memchr, hb], .zero hb⟩
      · rcases ih s h with ⟨i, e, hi⟩ | ⟨e, hi⟩
        · left; exact ⟨i + 1, by simp [memchr, hb, e], .succ hb hi⟩
        · right; exact ⟨by simp [memchr, hb, e], by simp [hi, Ne.symm hb]⟩

/-- C07. `memrchr`: last occurrence among the first `n` characters. -/
theorem memrchr_last (s : List α) (c : α) (n : Nat) (h : n ≤ s.length) :
    (∃ i, memrchr s c n = .ok (some i) ∧ LastIdx (· = c) (s.take n) i) ∨
    (memrchr s c n = .ok none ∧ c ∉ s.take n) := by
  induction n with
  | zero => right; exact ⟨by unfold memrchr; rfl, by simp⟩
  | succ n ih =>
    have hr : s[n]? = some s[n] := List.getElem?_eq_getElem (by omega)
    by_cases hb : s[n] = c
    · left
      refine ⟨n, by simp [memrchr, rd, hr, hb], ⟨c, ?_, rfl⟩, ?_⟩
      · rw [List.getElem?_take, if_pos (by omega), hr, hb]
      · intro j hj x hx
        rw [List.getElem?_take, if_neg (by omega)] at hx; cases hx
    · have ht : s.take (n + 1) = s.take n ++ [s[n]] := by
        rw [List.take_succ, hr]; rfl
      rcases ih (by omega) with ⟨i, e, ⟨d, hd, rfl⟩, hi2⟩ | ⟨e, hi⟩
      · left
        refine ⟨i, by simp [memrchr, rd, hr, hb, e], ⟨d, ?_, rfl⟩, ?_⟩
        · rw [List.getElem?_take] at hd ⊢
          split at hd
          · rw [if_pos (by omega)]; exact hd
          · cases hd
        · intro j hj x hx
          rw [List.getElem?_take] at hx
          split at hx
          · by_cases hjn : j = n
            · subst hjn; rw [hr] at hx; cases hx; exact hb
            · exact hi2 j hj x (by rw [List.getElem?_take, if_pos (by omega)]; exact hx)
          · cases hx
      · right
        refine ⟨by simp [memrchr, rd, hr, hb, e], ?_⟩
        rw [ht, List.mem_append]; simp [hi, Ne.symm hb]

/-- C07. `strchr`: first occurrence in the string including its terminator. -/
theorem strchr_first (buf s : List α) (c : α) (h : CStr buf s) :
    (∃ i, strchr buf c = .ok (some i) ∧ FirstIdx (· = c) (s ++ [0]) i) ∨
    (strchr buf c = .ok none ∧ c ∉ s ++ [0]) := by
  induction buf generalizing s with
  | nil => exact absurd h not_cstr_nil
  | cons b buf ih =>
    rcases h.cons_inv with ⟨rfl, rfl⟩ | ⟨hb, s', rfl, hs'⟩
    · by_cases hc : c = 0
      · left; exact ⟨0, by simp [strchr, hc], .zero (by simp [hc])⟩
      · right; exact ⟨by simp [strchr, hc], by simp [hc]⟩
    · by_cases hc : b = c
      · left; exact ⟨0, by simp [strchr, hb, hc ▸ hb, hc], .zero hc⟩
      · rcases ih s' hs' with ⟨i, e, hi⟩ | ⟨e, hi⟩
        · left; exact ⟨i + 1, by simp [strchr, hb, hc, e], .succ hc hi⟩
        · right; exact ⟨by simp [strchr, hb, hc, e], by simpa [Ne.symm hc] using hi⟩

/-- C07. `wcschr`: first occurrence in the string including its terminator. -/
theorem wcschr_first (buf s : List α) (c : α) (h : CStr buf s) :
    (∃ i, wcschr buf c = .ok (some i) ∧ FirstIdx (· = c) (s ++ [0]) i) ∨
    (wcschr buf c = .ok none ∧ c ∉ s ++ [0]) := by
  by_cases hc : c = 0
  · subst hc
    left
    refine ⟨s.length, by simp [wcschr, strlen_exact buf s h], ⟨0, by simp, rfl⟩, ?_⟩
    intro j hj x hx e
    subst e
    rw [List.getElem?_append_left hj] at hx
    exact h.1 (List.mem_of_getElem? hx)
  · have e0 : wcschr buf c = wcschr.go buf c := by simp [wcschr, hc]
    rw [e0]
    clear e0
    induction buf generalizing s with
    | nil => exact absurd h not_cstr_nil
    | cons b buf ih =>
      rcases h.cons_inv with ⟨rfl, rfl⟩ | ⟨hb, s', rfl, hs'⟩
      · right; exact ⟨by simp [wcschr.go], by simp [hc]⟩
      · by_cases hbc : b = c
        · left; exact ⟨0, by subst hbc; simp [wcschr.go, hb], .zero hbc⟩
        · rcases ih s' hs' with ⟨i, e, hi⟩ | ⟨e, hi⟩
          · left; exact ⟨i + 1, by simp [wcschr.go, hb, hbc, e], .succ hbc hi⟩
          · right; exact ⟨by simp [wcschr.go, hb, hbc, e], by simpa [Ne.symm hbc] using hi⟩

/-- C07. `strchrnul`: first occurrence, or the terminator's offset. -/
theorem strchrnul_first (buf s : List α) (c : α) (h : CStr buf s) :
    ∃ i, strchrnul buf c = .ok i ∧ FirstIdx (fun x => x = c ∨ x = 0) (s ++ [0]) i := by
  induction buf generalizing s with
  | nil => exact absurd h not_cstr_nil
  | cons b buf ih =>
    rcases h.cons_inv with ⟨rfl, rfl⟩ | ⟨hb, s', rfl, hs'⟩
    · exact ⟨0, by simp [strchrnul], .zero (by simp)⟩
    · by_cases hc : b = c
      · exact ⟨0, by simp [strchrnul, hc ▸ hb, hc], .zero (by simp [hc])⟩
      · obtain ⟨i, e, hi⟩ := ih s' hs'
        exact ⟨i + 1, by simp [strchrnul, hb, hc, e], .succ (by simp [hc, hb]) hi⟩

/-- Membership in the set given by a C string, as `strchr` decides it for a non-NUL character. -/
theorem strchr_mem (buf s : List α) (c : α) (h : CStr buf s) (hc : c ≠ 0) :
    ∃ r, strchr buf c = .ok r ∧ (r.isSome = true ↔ c ∈ s) := by
  rcases strchr_first buf s c h with ⟨i, e, ⟨d, hd, rfl⟩, _⟩ | ⟨e, hi⟩
  · have := List.mem_of_getElem? hd
    exact ⟨some i, e, by simpa [hc] using this⟩
  · exact ⟨none, e, by simp only [Option.isSome_none, Bool.false_eq_true, false_iff]
                       intro hm; exact hi (by simp [hm])⟩

theorem SpanLen.zero_nil {q : α → Prop} : SpanLen q [] 0 := ⟨by simp, by intro j hj; omega, by simp⟩
theorem SpanLen.zero {q : α → Prop} {c : α} {s : List α} (h : ¬ q c) : SpanLen q (c :: s) 0 :=
  ⟨by simp, by intro j hj; omega, by simpa using h⟩
theorem SpanLen.succ {q : α → Prop} {c : α} {s : List α} {n : Nat} (h0 : q c) (h : SpanLen q s n) :
    SpanLen q (c :: s) (n + 1) := by
  obtain ⟨h1, h2, h3⟩ := h
  refine ⟨by simpa using h1, ?_, by simpa using h3⟩
  intro j hj x hx
  match j with
  | 0 => simp at hx; subst hx; exact h0
  | j + 1 => exact h2 j (by omega) x (by simpa using hx)

/-- C07. `strspn`: length of the longest prefix of characters in the set. -/
theorem strspn_exact (buf s set' set : List α) (h : CStr buf s) (hset : CStr set' set) :
    ∃ n, strspn buf set' = .ok n ∧ SpanLen (· ∈ set) s n := by
  induction buf generalizing s with
  | nil => exact absurd h not_cstr_nil
  | cons b buf ih =>
    rcases h.cons_inv with ⟨rfl, rfl⟩ | ⟨hb, s', rfl, hs'⟩
    · exact ⟨0, by simp [strspn], .zero_nil⟩
    · obtain ⟨r, e, hr⟩ := strchr_mem set' set b hset hb
      by_cases hm : b ∈ set
      · obtain ⟨n, e', hn⟩ := ih s' hs'
        obtain ⟨i, rfl⟩ := Option.isSome_iff_exists.1 (hr.2 hm)
        exact ⟨n + 1, by simp [strspn, hb, e, e'], .succ hm hn⟩
      · have : r = none := by cases r <;> simp_all
        exact ⟨0, by simp [strspn, hb, e, this], .zero hm⟩

/-- C07. `strcspn`: length of the longest prefix of characters outside the set. -/
theorem strcspn_exact (buf s set' set : List α) (h : CStr buf s) (hset : CStr set' set) :
    ∃ n, strcspn buf set' = .ok n ∧ SpanLen (· ∉ set) s n := by
  induction buf generalizing s with
  | nil => exact absurd h not_cstr_nil
  | cons b buf ih =>
    rcases h.cons_inv with ⟨rfl, rfl⟩ | ⟨hb, s', rfl, hs'⟩
    · exact ⟨0, by simp [strcspn], .zero_nil⟩
    · obtain ⟨r, e, hr⟩ := strchr_mem set' set b hset hb
      by_cases hm : b ∈ set
      · exact ⟨0, by simp [strcspn, hb, e, hr.2 hm], .zero (by simpa using hm)⟩
      · have : r = none := by cases r <;> simp_all
        obtain ⟨n, e', hn⟩ := ih s' hs'
        exact ⟨n + 1, by simp [strcspn, hb, e, e', this], .succ hm hn⟩

/-- C07. `strpbrk`: first character belonging to the set, NULL iff none. -/
theorem strpbrk_first (buf s set' set : List α) (h : CStr buf s) (hset : CStr set' set) :
    (∃ i, strpbrk buf set' = .ok (some i) ∧ FirstIdx (· ∈ set) s i) ∨
    (strpbrk buf set' = .ok none ∧ ∀ c ∈ s, c ∉ set) := by
  induction buf generalizing s with
  | nil => exact absurd h not_cstr_nil
  | cons b buf ih =>
    rcases h.cons_inv with ⟨rfl, rfl⟩ | ⟨hb, s', rfl, hs'⟩
    · right; exact ⟨by simp [strpbrk], by simp⟩
    · obtain ⟨r, e, hr⟩ := strchr_mem set' set b hset hb
      by_cases hm : b ∈ set
      · left; exact ⟨0, by simp [strpbrk, hb, e, hr.2 hm], .zero hm⟩
      · have hr0 : r = none := by cases r <;> simp_all
        rcases ih s' hs' with ⟨i, e', hi⟩ | ⟨e', hi⟩
        · left; exact ⟨i + 1, by simp [strpbrk, hb, e, e', hr0], .succ hm hi⟩
        · right; exact ⟨by simp [strpbrk, hb, e, e', hr0], by simpa [hm] using hi⟩

theorem strrchrLoop_eq (s : List α) (c : α) (k : Nat) : strrchrLoop s c k = memrchr s c (k + 1) := by
  induction k with
  | zero => simp [strrchrLoop, memrchr]
  | succ k ih => rw [strrchrLoop, memrchr, ih]

/-- C07. `strrchr`: last occurrence in the string including its terminator. -/
theorem strrchr_last (buf s : List α) (c : α) (h : CStr buf s) :
    (∃ i, strrchr buf c = .ok (some i) ∧ LastIdx (· = c) (s ++ [0]) i) ∨
    (strrchr buf c = .ok none ∧ c ∉ s ++ [0]) := by
  have e : strrchr buf c = memrchr buf c (s.length + 1) := by
    simp [strrchr, strlen_exact buf s h, strrchrLoop_eq]
  obtain ⟨h0, rest, rfl⟩ := h
  have ht : (s ++ 0 :: rest).take (s.length + 1) = s ++ [0] := by
    rw [List.take_append, List.take_of_length_le (by omega)]; simp
  have := memrchr_last (s ++ 0 :: rest) c (s.length + 1) (by simp)
  rw [ht] at this
  rwa [e]

example : strrchr ([47, 97, 47, 98, 0] : List UInt8) 47 = .ok (some 2) := by decide
example : strspn ([97, 98, 99, 0] : List UInt8) [98, 97, 0] = .ok 2 := by decide
example : strcspn ([97, 98, 99, 0] : List UInt8) [99, 0] = .ok 2 := by decide
example : strpbrk ([97, 98, 99, 0] : List UInt8) [99, 98, 0] = .ok (some 1) := by decide
example : strchr ([97, 98, 0] : List UInt8) 0 = .ok (some 2) := by decide
example : memchr ([97, 98] : List UInt8) 98 2 = .ok (some 1) := by decide
example : ∃ n, strspn ([97, 98, 99, 0, 1] : List UInt8) [98, 97, 0] = .ok n ∧
    SpanLen (· ∈ [98, 97]) ([97, 98, 99] : List UInt8) n :=
  strspn_exact _ _ _ _ ⟨by decide, [1], rfl⟩ ⟨by decide, [], rfl⟩

end Mlibc.Str
