import Verif.Net.InetText

/-
IPv4 address texts (options/posix/generic/arpa-inet.cpp L48-162, L248-270). Strings are lists of characters that go on
past the terminator as far as the object does; reading past the list is undefined. `snprintf` stands for its contract
(`Mlibc.Printf.snprintf_exact_partial`) with the number texts of `%u`, `%d` and `%x`. Addresses are in host order; the
conversion to network order is property C50. Property C49.
-/
namespace Mlibc.Inet
open Mlibc Mlibc.Strtol

/-- Storing characters from position `i` on. -/
def puts : List Nat → Nat → List Nat → Res (List Nat)
  | buf, _, [] => .ok buf
  | buf, i, c :: cs => if i < buf.length then puts (buf.set i c) (i + 1) cs else .ub

/-- `snprintf(dst + off, n, ...)` producing `text`; it returns the length of `text`. -/
def snpr (buf : List Nat) (off n : Nat) (text : List Nat) : Res (List Nat) :=
  if n = 0 then .ok buf else puts buf off (text.take (n - 1) ++ [0])

/-- The characters the format `"%u.%u.%u.%u"` produces. -/
def dotted (a b c d : Nat) : List Nat := decimal a ++ 46 :: (decimal b ++ 46 :: (decimal c ++ 46 :: decimal d))

/-- `inet_ntop(AF_INET)`: whether it succeeds (the alternative is ENOSPC) and the buffer afterwards. L148-162 -/
def ntop4 (buf : List Nat) (size addr : Nat) : Res (Bool × List Nat) :=
  let text := dotted ((addr >>> 24) &&& 255) ((addr >>> 16) &&& 255) ((addr >>> 8) &&& 255) (addr &&& 255)
  (snpr buf 0 size text).bind fun b => .ok (text.length < size, b)

/-- `inet_ntoa`: the contents of its 16-byte buffer. L62-71 -/
def ntoa (buf : List Nat) (addr : Nat) : Res (List Nat) :=
  snpr buf 0 16 (dotted ((addr >>> 24) &&& 255) ((addr >>> 16) &&& 255) ((addr >>> 8) &&& 255) (addr &&& 255))

/-- `(array[0] << 24) | (array[1] << 16) | (array[2] << 8) | array[3]` -/
def join4 : List Nat → Nat
  | [a, b, c, d] => a <<< 24 ||| b <<< 16 ||| c <<< 8 ||| d
  | _ => 0

/-- The loop of `inet_pton(AF_INET)`; `none` is the return value 0. L252-264 -/
def pton4Loop : Nat → List Nat → List Nat → Res (Option Nat)
  | 0, _, acc => .ok (some (join4 acc))
  | k + 1, src, acc =>
    (Str.rd src 0).bind fun c =>
    if ¬ isDigit c then .ok none
    else (strtol src 10).bind fun r =>
      if r.1 > 255 ∨ r.2.1 > 3 then .ok none
      else (Str.rd src r.2.1).bind fun d =>
        if d ≠ 0 ∧ d ≠ 46 then .ok none
        else pton4Loop k (src.drop (r.2.1 + 1)) (acc ++ [r.1.toNat])

/-- `inet_pton(AF_INET)`: `none` is the return value 0. L250-270 -/
def pton4 (src : List Nat) : Res (Option Nat) := pton4Loop 4 src []

/-! ## Specification -/

/-- The text of an address. -/
def text4 (addr : Nat) : List Nat := dotted (addr / 2 ^ 24 % 256) (addr / 2 ^ 16 % 256) (addr / 2 ^ 8 % 256) (addr % 256)

/-- One part of an address: one to three digits, at most 255. -/
def Part (ds : List Nat) : Prop :=
  ds ≠ [] ∧ ds.length ≤ 3 ∧ (∀ c ∈ ds, 48 ≤ c ∧ c ≤ 57) ∧ Spec.valueOf 10 ds ≤ 255

/-! ## Proof -/

theorem puts_ok : ∀ (cs buf : List Nat) (i : Nat), i + cs.length ≤ buf.length →
    puts buf i cs = .ok (buf.take i ++ cs ++ buf.drop (i + cs.length)) := by
  intro cs
  induction cs with
  | nil => intro buf i h; simp [puts]
  | cons c cs ih =>
    intro buf i h
    rw [List.length_cons] at h
    rw [puts, if_pos (by omega), ih _ _ (by rw [List.length_set]; omega)]
    congr 1
    rw [List.take_set, List.drop_set_of_lt (by omega)]
    rw [List.take_succ_eq_append_getElem (by omega : i < buf.length)]
    rw [List.set_append_right _ _ (by simp; omega)]
    simp only [List.length_take, List.length_cons]
    rw [show i - min i buf.length = 0 by omega, show i + (cs.length + 1) = i + 1 + cs.length by omega]
    simp

theorem snpr_ok (buf : List Nat) (off n : Nat) (text : List Nat) (h : off + n ≤ buf.length) :
    snpr buf off n text = .ok (if n = 0 then buf else
      buf.take off ++ (text.take (n - 1) ++ [0]) ++ buf.drop (off + (min (n - 1) text.length + 1))) := by
  unfold snpr
  by_cases hn : n = 0
  · rw [if_pos hn, if_pos hn]
  · rw [if_neg hn, if_neg hn, puts_ok _ _ _ (by simp; omega)]
    simp

theorem octets (addr : Nat) : (addr >>> 24) &&& 255 = addr / 2 ^ 24 % 256 ∧ (addr >>> 16) &&& 255 = addr / 2 ^ 16 % 256 ∧
    (addr >>> 8) &&& 255 = addr / 2 ^ 8 % 256 ∧ addr &&& 255 = addr % 256 := by
  have h : ∀ x, x &&& 255 = x % 256 := fun x => Nat.and_two_pow_sub_one_eq_mod x 8
  simp only [h, Nat.shiftRight_eq_div_pow, and_self]

theorem join4_eq {a b c d : Nat} (hb : b < 256) (hc : c < 256) (hd : d < 256) :
    join4 [a, b, c, d] = a * 2 ^ 24 + b * 2 ^ 16 + c * 2 ^ 8 + d := by
  unfold join4
  simp only [Nat.shiftLeft_eq]
  have h1 : a * 2 ^ 24 ||| b * 2 ^ 16 = a * 2 ^ 24 + b * 2 ^ 16 := by
    rw [Nat.mul_comm a, Nat.two_pow_add_eq_or_of_lt (by omega)]
  have h2 : (a * 2 ^ 24 + b * 2 ^ 16) ||| c * 2 ^ 8 = a * 2 ^ 24 + b * 2 ^ 16 + c * 2 ^ 8 := by
    rw [show a * 2 ^ 24 + b * 2 ^ 16 = 2 ^ 16 * (a * 2 ^ 8 + b) by omega, Nat.two_pow_add_eq_or_of_lt (by omega)]
  have h3 : (a * 2 ^ 24 + b * 2 ^ 16 + c * 2 ^ 8) ||| d = a * 2 ^ 24 + b * 2 ^ 16 + c * 2 ^ 8 + d := by
    rw [show a * 2 ^ 24 + b * 2 ^ 16 + c * 2 ^ 8 = 2 ^ 8 * (a * 2 ^ 16 + b * 2 ^ 8 + c) by omega,
      Nat.two_pow_add_eq_or_of_lt (by omega)]
  rw [h1, h2, h3]

theorem span_digits (s : List Nat) : ∃ ds t, s = ds ++ t ∧ s.takeWhile isDigit = ds ∧ (∀ x ∈ ds, isDigit x = true) ∧
    ∀ x, t.head? = some x → isDigit x = false := by
  induction s with
  | nil => exact ⟨[], [], rfl, rfl, by simp, by simp⟩
  | cons a s ih =>
    by_cases h : isDigit a = true
    · obtain ⟨ds, t, h1, h2, h3, h4⟩ := ih
      refine ⟨a :: ds, t, by rw [h1]; rfl, by rw [List.takeWhile_cons, h, h2]; rfl, ?_, h4⟩
      intro x hx
      rcases List.mem_cons.1 hx with rfl | hx
      · exact h
      · exact h3 x hx
    · refine ⟨[], a :: s, rfl, by simp [h], by simp, ?_⟩
      intro x hx
      simp only [List.head?_cons, Option.some.injEq] at hx
      subst hx
      simpa using h

/-- One round of the loop. -/
theorem pton4_step (k : Nat) (s rest acc : List Nat) (h0 : 0 ∉ s) :
    pton4Loop (k + 1) (s ++ 0 :: rest) acc =
      let ds := s.takeWhile isDigit
      if ds = [] ∨ ds.length > 3 ∨ Spec.valueOf 10 ds > 255 then .ok none
      else match s.drop ds.length with
        | [] => pton4Loop k rest (acc ++ [Spec.valueOf 10 ds])
        | 46 :: t => pton4Loop k (t ++ 0 :: rest) (acc ++ [Spec.valueOf 10 ds])
        | _ => .ok none := by
  have hdig : ∀ x, isDigit x = Spec.isDigitIn 10 x := by
    intro x
    rw [Bool.eq_iff_iff, isDigitIn_10]
    simp [isDigit]
  obtain ⟨ds, t, rfl, hds, hall, hnot⟩ := span_digits s
  have ht : (ds ++ t).drop ds.length = t := by simp
  rw [hds]
  simp only
  rw [ht]
  have h0t : 0 ∉ t := fun h => h0 (by simp [h])
  rw [pton4Loop]
  cases ds with
  | nil =>
    simp only [List.nil_append, true_or, if_true]
    cases t with
    | nil => rfl
    | cons x t =>
      have := hnot x rfl
      simp [Str.rd, Res.bind, this]
  | cons d ds =>
    have hd := hall d (by simp)
    have hr : Str.rd (d :: ds ++ t ++ 0 :: rest) 0 = .ok d := rfl
    rw [hr]
    simp only [Res.bind, hd, not_true, if_false]
    rw [strtol_any 10 (Or.inl rfl) (d :: ds) t rest (by simp) (fun x hx => by rw [← hdig]; exact hall x hx) h0t
      (fun x hx => ⟨by rw [← hdig]; exact hnot x hx, by omega⟩)]
    simp only [reduceCtorEq, false_or]
    by_cases hbig : (d :: ds).length > 3 ∨ Spec.valueOf 10 (d :: ds) > 255
    · rw [if_pos hbig, if_pos]
      rcases hbig with h | h
      · exact Or.inr h
      · left
        split <;> omega
    · have hlt : Spec.valueOf 10 (d :: ds) < 2 ^ 63 := by omega
      rw [if_neg hbig, if_pos hlt, if_neg (by omega)]
      have hrd : Str.rd (d :: ds ++ t ++ 0 :: rest) (d :: ds).length = .ok ((t ++ 0 :: rest).head (by simp)) := by
        unfold Str.rd
        rw [List.append_assoc, List.getElem?_append_right (Nat.le_refl _), Nat.sub_self]
        cases t <;> rfl
      rw [hrd]
      simp only
      have hdrop : (d :: ds ++ t ++ 0 :: rest).drop ((d :: ds).length + 1) = (t ++ 0 :: rest).drop 1 := by
        rw [List.append_assoc, List.drop_append]
        simp
      rw [hdrop]
      cases t with
      | nil => simp
      | cons x t =>
        have hx0 : x ≠ 0 := fun h => h0t (by simp [h])
        simp only [List.cons_append, List.head_cons, List.drop_succ_cons, List.drop_zero]
        by_cases hx : x = 46
        · subst hx; simp
        · rw [if_pos ⟨hx0, hx⟩]
          split
          · simp_all
          · simp_all
          · rfl

theorem Part.digit {ds : List Nat} (h : Part ds) : ∀ x ∈ ds, isDigit x = true := by
  intro x hx
  have := h.2.2.1 x hx
  simp [isDigit]; omega

theorem Part.takeWhile {ds t : List Nat} (h : Part ds) (ht : t = [] ∨ t.head? = some 46) :
    (ds ++ t).takeWhile isDigit = ds := by
  apply takeWhile_app
  · exact h.digit
  · intro x hx
    rcases ht with rfl | ht
    · simp at hx
    · rw [ht] at hx
      simp only [Option.some.injEq] at hx
      subst hx
      decide

theorem Part.noNul {ds : List Nat} (h : Part ds) : 0 ∉ ds := fun hx => by have := h.2.2.1 0 hx; omega

theorem Part.noDot {ds : List Nat} (h : Part ds) : ds.count 46 = 0 := by
  rw [List.count_eq_zero]
  intro hx
  have := h.2.2.1 46 hx
  omega

/-- A round that accepts. -/
theorem pton4_part (k : Nat) (ds t rest acc : List Nat) (h0 : 0 ∉ ds ++ t) (h : Part ds) (ht : t = [] ∨ t.head? = some 46) :
    pton4Loop (k + 1) (ds ++ t ++ 0 :: rest) acc =
      match t with
      | [] => pton4Loop k rest (acc ++ [Spec.valueOf 10 ds])
      | _ :: t => pton4Loop k (t ++ 0 :: rest) (acc ++ [Spec.valueOf 10 ds]) := by
  rw [pton4_step k (ds ++ t) rest acc h0, h.takeWhile ht]
  obtain ⟨h1, h2, h3, h4⟩ := h
  simp only
  rw [if_neg (by rintro (h | h | h); · exact h1 h
                 · omega
                 · omega)]
  rw [List.drop_left]
  rcases ht with rfl | ht
  · rfl
  · cases t with
    | nil => simp at ht
    | cons x t =>
      simp only [List.head?_cons, Option.some.injEq] at ht
      subst ht
      rfl

/-- A round accepts, or the text is not a part followed by a dot or the end. -/
theorem pton4_cases (k : Nat) (s rest acc : List Nat) (h0 : 0 ∉ s) :
    (∃ ds t, s = ds ++ t ∧ Part ds ∧ (t = [] ∨ t.head? = some 46)) ∨ pton4Loop (k + 1) (s ++ 0 :: rest) acc = .ok none := by
  rw [pton4_step k s rest acc h0]
  obtain ⟨ds, t, rfl, hds, hall, hnot⟩ := span_digits s
  rw [hds]
  simp only
  by_cases hc : ds = [] ∨ ds.length > 3 ∨ Spec.valueOf 10 ds > 255
  · rw [if_pos hc]; exact Or.inr rfl
  · rw [if_neg hc, List.drop_left]
    have hp : Part ds := by
      refine ⟨fun h => hc (Or.inl h), by omega, ?_, by omega⟩
      intro c hcm
      have := hall c hcm
      simpa [isDigit] using this
    cases t with
    | nil => exact Or.inl ⟨ds, [], rfl, hp, Or.inl rfl⟩
    | cons x t =>
      by_cases hx : x = 46
      · subst hx
        exact Or.inl ⟨ds, 46 :: t, rfl, hp, Or.inr rfl⟩
      · right
        split
        · simp_all
        · simp_all
        · rfl

/-! ## Theorems -/

/-- C49, IPv4, `inet_ntop`: with room for the text and its terminator these are written, and otherwise the call fails;
nothing behind the first `size` bytes changes. -/
theorem ntop4_exact (buf : List Nat) (size addr : Nat) (hs : size ≤ buf.length) : ∃ buf',
    ntop4 buf size addr = .ok (decide ((text4 addr).length < size), buf') ∧ buf'.length = buf.length ∧
      buf'.drop size = buf.drop size ∧
      ((text4 addr).length < size → ∃ rest, buf' = text4 addr ++ 0 :: rest) := by
  obtain ⟨h1, h2, h3, h4⟩ := octets addr
  unfold ntop4
  rw [h1, h2, h3, h4]
  show ∃ buf', (((snpr buf 0 size (text4 addr)).bind fun b => .ok (decide ((text4 addr).length < size), b)) = _) ∧ _
  generalize text4 addr = text
  rw [snpr_ok buf 0 size text (by omega)]
  simp only [Res.bind]
  refine ⟨_, rfl, ?_, ?_, ?_⟩
  · split
    · rfl
    · clear h1 h2 h3 h4
      simp; omega
  · clear h1 h2 h3 h4
    split
    · rfl
    · simp only [List.take_zero, List.nil_append, Nat.zero_add]
      rw [List.drop_append, List.drop_eq_nil_of_le (by simp; omega), List.nil_append, List.drop_drop]
      congr 1
      simp; omega
  · intro hlt
    rw [if_neg (by omega)]
    refine ⟨buf.drop (text.length + 1), ?_⟩
    rw [List.take_of_length_le (l := text) (by omega), show min (size - 1) text.length = text.length by omega]
    simp

theorem part_decimal {n : Nat} (h : n < 256) : Part (decimal n) :=
  ⟨decimal_ne_nil n, decimal_length (by omega), decimal_digits n, by rw [decimal_value]; omega⟩

/-- A dotted quad, with what may follow it. -/
def Quad (s : List Nat) (v : Nat) (t : List Nat) : Prop :=
  ∃ a b c d, Part a ∧ Part b ∧ Part c ∧ Part d ∧ s = a ++ 46 :: (b ++ 46 :: (c ++ 46 :: (d ++ t))) ∧
    v = Spec.valueOf 10 a * 2 ^ 24 + Spec.valueOf 10 b * 2 ^ 16 + Spec.valueOf 10 c * 2 ^ 8 + Spec.valueOf 10 d

theorem quad_accepts {s t : List Nat} {v : Nat} (h : Quad s v t) (ht : t = [] ∨ t.head? = some 46) (h0 : 0 ∉ s)
    (rest : List Nat) : pton4 (s ++ 0 :: rest) = .ok (some v) := by
  obtain ⟨a, b, c, d, pa, pb, pc, pd, rfl, rfl⟩ := h
  rw [← join4_eq (by have := pb.2.2.2; omega) (by have := pc.2.2.2; omega) (by have := pd.2.2.2; omega)]
  have n1 := pa.noNul
  have n2 := pb.noNul
  have n3 := pc.noNul
  have n4 := pd.noNul
  have n5 : 0 ∉ t := fun h => h0 (by simp [h])
  unfold pton4
  rw [pton4_part 3 _ _ rest _ (by simp [*]) pa (Or.inr rfl)]
  simp only
  rw [pton4_part 2 _ _ rest _ (by simp [*]) pb (Or.inr rfl)]
  simp only
  rw [pton4_part 1 _ _ rest _ (by simp [*]) pc (Or.inr rfl)]
  simp only
  rw [pton4_part 0 _ _ rest _ (by simp [*]) pd ht]
  cases t <;> rfl

/-- C49, IPv4: the texts `inet_ntop` writes are read back as the same address. -/
theorem roundtrip4 (addr : Nat) (ha : addr < 2 ^ 32) (rest : List Nat) :
    pton4 (text4 addr ++ 0 :: rest) = .ok (some addr) := by
  have pa := part_decimal (n := addr / 2 ^ 24 % 256) (by omega)
  have pb := part_decimal (n := addr / 2 ^ 16 % 256) (by omega)
  have pc := part_decimal (n := addr / 2 ^ 8 % 256) (by omega)
  have pd := part_decimal (n := addr % 256) (by omega)
  have n1 := pa.noNul
  have n2 := pb.noNul
  have n3 := pc.noNul
  have n4 := pd.noNul
  refine quad_accepts (t := []) ⟨_, _, _, _, pa, pb, pc, pd, by simp [text4, dotted], ?_⟩ (Or.inl rfl) (by simp [text4, dotted, *]) rest
  simp only [decimal_value]
  omega

/-- C49, IPv4, `inet_pton` on a string with at least three dots: it reads only the string, and accepts exactly four
parts of one to three digits and at most 255, separated by dots. Missing: strings with fewer dots
(`pton4_overread_violated`), and that nothing follows the fourth part: a dot with anything behind it may
(`pton4_trailing_violated`). -/
theorem pton4_exact_partial (s rest : List Nat) (h0 : 0 ∉ s) (hdots : 3 ≤ s.count 46) :
    (∃ v t, (t = [] ∨ t.head? = some 46) ∧ Quad s v t ∧ pton4 (s ++ 0 :: rest) = .ok (some v)) ∨
    ((∀ v t, (t = [] ∨ t.head? = some 46) → ¬ Quad s v t) ∧ pton4 (s ++ 0 :: rest) = .ok none) := by
  by_cases hq : ∃ v t, (t = [] ∨ t.head? = some 46) ∧ Quad s v t
  · obtain ⟨v, t, ht, h⟩ := hq
    exact Or.inl ⟨v, t, ht, h, quad_accepts h ht h0 rest⟩
  · right
    refine ⟨fun v t ht h => hq ⟨v, t, ht, h⟩, ?_⟩
    unfold pton4
    -- a part before a dot
    have round : ∀ k s acc, 0 ∉ s → 1 ≤ s.count 46 → (∃ ds t, s = ds ++ 46 :: t ∧ Part ds ∧ 0 ∉ t ∧ s.count 46 = t.count 46 + 1 ∧
        pton4Loop (k + 1) (s ++ 0 :: rest) acc = pton4Loop k (t ++ 0 :: rest) (acc ++ [Spec.valueOf 10 ds])) ∨
        pton4Loop (k + 1) (s ++ 0 :: rest) acc = .ok none := by
      intro k s acc h0 hd
      rcases pton4_cases k s rest acc h0 with ⟨ds, t, rfl, hp, ht⟩ | h
      · left
        have hnd := hp.noDot
        cases t with
        | nil => simp [hnd] at hd
        | cons x t =>
          simp only [List.head?_cons, Option.some.injEq, reduceCtorEq, false_or] at ht
          subst ht
          refine ⟨ds, t, rfl, hp, fun h => h0 (by simp [h]), by simp [hnd], ?_⟩
          rw [pton4_part k ds (46 :: t) rest acc h0 hp (Or.inr rfl)]
      · exact Or.inr h
    rcases round 3 s [] h0 (by omega) with ⟨a, s1, rfl, pa, z1, c1, e1⟩ | h
    · rw [e1]
      rcases round 2 s1 _ z1 (by omega) with ⟨b, s2, rfl, pb, z2, c2, e2⟩ | h
      · rw [e2]
        rcases round 1 s2 _ z2 (by omega) with ⟨c, s3, rfl, pc, z3, c3, e3⟩ | h
        · rw [e3]
          rcases pton4_cases 0 s3 rest ([] ++ [Spec.valueOf 10 a] ++ [Spec.valueOf 10 b] ++ [Spec.valueOf 10 c]) z3 with
            ⟨d, t, rfl, pd, ht⟩ | h
          · exact absurd ⟨_, t, ht, a, b, c, d, pa, pb, pc, pd, rfl, rfl⟩ hq
          · exact h
        · exact h
      · exact h
    · exact h

/-- The hypotheses are met, and both cases occur: "1.2.3.4" and "1.2.3.256". -/
example : pton4 ([49, 46, 50, 46, 51, 46, 52] ++ 0 :: []) = .ok (some 0x01020304) ∧
    pton4 ([49, 46, 50, 46, 51, 46, 50, 53, 54] ++ 0 :: []) = .ok none := by decide +kernel

/-- "1.2.3" is not rejected: the byte behind the terminator is read. -/
theorem pton4_overread_violated : pton4 [49, 46, 50, 46, 51, 0] = .ub := by decide +kernel

/-- "1.2.3.4.x" is accepted. -/
theorem pton4_trailing_violated : pton4 [49, 46, 50, 46, 51, 46, 52, 46, 120, 0] = .ok (some 0x01020304) := by
  decide +kernel

/-- `inet_ntoa` always fits its buffer of 16 bytes. -/
theorem ntoa_exact (buf : List Nat) (addr : Nat) (hb : buf.length = 16) : ∃ rest,
    ntoa buf addr = .ok (text4 addr ++ 0 :: rest) ∧ (text4 addr).length ≤ 15 := by
  obtain ⟨h1, h2, h3, h4⟩ := octets addr
  have l1 := decimal_length (n := addr / 2 ^ 24 % 256) (by omega)
  have l2 := decimal_length (n := addr / 2 ^ 16 % 256) (by omega)
  have l3 := decimal_length (n := addr / 2 ^ 8 % 256) (by omega)
  have l4 := decimal_length (n := addr % 256) (by omega)
  have hl : (text4 addr).length ≤ 15 := by
    unfold text4 dotted
    simp only [List.length_append, List.length_cons]
    omega
  unfold ntoa
  rw [h1, h2, h3, h4]
  show ∃ rest, snpr buf 0 16 (text4 addr) = _ ∧ _
  generalize text4 addr = text at *
  rw [snpr_ok buf 0 16 text (by omega), if_neg (by omega)]
  refine ⟨buf.drop (text.length + 1), ?_, hl⟩
  rw [List.take_of_length_le (l := text) (by omega), show min (16 - 1) text.length = text.length by omega]
  simp

/-! ## inet_aton -/

/-- `strtoul` -/
abbrev strtoul (s : List Nat) (base : Nat) : Res (Int × Nat × Bool) := stringToInteger ⟨64, false⟩ cSpace s base

/-- The `switch` at the end of `inet_aton`. L105-134 -/
def atonJoin : List Nat → Res (Option Nat)
  | [a] => .ok (if a > 0xFFFFFFFF then none else some a)
  | [a, b] => .ok (if a > 0xFF ∨ b > 0xFFFFFF then none else some ((a &&& 0xFF) <<< 24 ||| (b &&& 0xFFFFFF)))
  | [a, b, c] => .ok (if a > 0xFF ∨ b > 0xFF ∨ c > 0xFFFF then none
      else some ((a &&& 0xFF) <<< 24 ||| (b &&& 0xFF) <<< 16 ||| (c &&& 0xFFFF)))
  | [a, b, c, d] => .ok (if a > 0xFF ∨ b > 0xFF ∨ c > 0xFF ∨ d > 0xFF then none
      else some ((a &&& 0xFF) <<< 24 ||| (b &&& 0xFF) <<< 16 ||| (c &&& 0xFF) <<< 8 ||| (d &&& 0xFF)))
  | _ => .panic

/-- The loop of `inet_aton`; `prev` is the character before `s`, if `s` is not the beginning. There are at most five
rounds (`fuel`). L78-101 -/
def atonLoop : Nat → Option Nat → List Nat → List Nat → Res (Option Nat)
  | 0, _, _, _ => .panic
  | fuel + 1, prev, s, parts =>
    (Str.rd s 0).bind fun c =>
    if cSpace c then .ok none
    else (strtoul s 0).bind fun r =>
      if r.2.1 = 0 then .ok none
      else if prev = some 45 then .ok none
      else if parts.length ≥ 4 then .ok none
      else (Str.rd s r.2.1).bind fun e =>
        if e = 46 then
          (Str.rd s (r.2.1 + 1)).bind fun x =>
          if x = 0 then .ok none else atonLoop fuel (some e) (s.drop (r.2.1 + 1)) (parts ++ [r.1.toNat])
        else if e = 0 then atonJoin (parts ++ [r.1.toNat])
        else .ok none

/-- `inet_aton`: `none` is the return value 0; the address is in host order. L73-138 -/
def aton (s : List Nat) : Res (Option Nat) := atonLoop 5 none s []

/-- One to four numbers with dots between them. -/
def dots : List Nat → List Nat
  | [] => []
  | [n] => decimal n
  | n :: ns => decimal n ++ 46 :: dots ns

/-- What one to four numbers stand for: each but the last is one octet, the last fills the rest. -/
def meaning : List Nat → Option Nat
  | [a] => if a < 2 ^ 32 then some a else none
  | [a, b] => if a < 256 ∧ b < 2 ^ 24 then some (a * 2 ^ 24 + b) else none
  | [a, b, c] => if a < 256 ∧ b < 256 ∧ c < 2 ^ 16 then some (a * 2 ^ 24 + b * 2 ^ 16 + c) else none
  | [a, b, c, d] =>
    if a < 256 ∧ b < 256 ∧ c < 256 ∧ d < 256 then some (a * 2 ^ 24 + b * 2 ^ 16 + c * 2 ^ 8 + d) else none
  | _ => none

theorem strtoul_decimal (n : Nat) (hn : n < 2 ^ 64) (t rest : List Nat) (h0 : 0 ∉ t) (ht : t = [] ∨ t.head? = some 46) :
    strtoul (decimal n ++ t ++ 0 :: rest) 0 = .ok (n, (decimal n).length, false) := by
  have hd := decimal_digits n
  have hne := decimal_ne_nil n
  have hv := decimal_value n
  have hh := decimal_head n
  have hcs : cSpace 46 = false := by decide
  unfold strtoul
  rw [strtol_exact_partial ⟨64, false⟩ (by decide) cSpace (by decide) _ (decimal n ++ t)
    ⟨by
      intro h
      rcases List.mem_append.1 h with h | h
      · have := hd 0 h; omega
      · exact h0 h, rest, rfl⟩ 0 (by omega) (by
      intro _ hb
      have hsp : ∀ c, 48 ≤ c → c ≤ 57 → cSpace c = false := by
        intro c h1 h2; unfold cSpace; simp; omega
      obtain ⟨x, r, e, hx, -⟩ := hb
      cases hdn : decimal n with
      | nil => exact hne hdn
      | cons c ds =>
        rw [hdn] at e hd
        have hc := hd c (by simp)
        unfold Spec.afterSign at e
        rw [List.cons_append, List.takeWhile_cons, hsp c hc.1 hc.2] at e
        simp only [Bool.false_eq_true, if_false, List.length_nil, List.drop_zero, List.head?_cons, Option.some.injEq] at e
        rw [if_neg (by omega)] at e
        simp only [List.drop_zero, List.cons.injEq] at e
        cases ds with
        | nil =>
          rcases ht with rfl | ht
          · simp at e
          · rw [List.nil_append] at e
            rw [e.2] at ht
            simp only [List.head?_cons, Option.some.injEq] at ht
            omega
        | cons y ys =>
          simp only [List.cons_append, List.cons.injEq] at e
          have := hd y (by simp)
          omega)]
  have hparse : Spec.parse cSpace 0 (decimal n ++ t) = some ((decimal n).length, false, n) := by
    by_cases hz : n = 0
    · subst hz
      rw [decimal_zero]
      rcases ht with rfl | ht
      · decide
      · cases t with
        | nil => simp at ht
        | cons x t =>
          simp only [List.head?_cons, Option.some.injEq] at ht
          subst ht
          have hbp : Spec.baseAndPrefix 0 (48 :: 46 :: t) = (8, 0) := by
            unfold Spec.baseAndPrefix
            split
            · rename_i e
              simp only [List.cons.injEq, true_and] at e
              rw [if_neg (by omega), if_neg (by omega)]; rfl
            · rfl
            · rename_i h; exact absurd rfl (h (46 :: t))
          unfold Spec.parse
          have e1 : (48 :: 46 :: t).takeWhile cSpace = [] := rfl
          rw [show [48] ++ 46 :: t = 48 :: 46 :: t from rfl, e1]
          simp only [List.length_nil, List.drop_zero, List.head?_cons, Option.some.injEq, Nat.reduceEqDiff, or_self, if_false]
          rw [hbp]
          have e2 : (48 :: 46 :: t).takeWhile (Spec.isDigitIn 8) = [48] := rfl
          simp only [List.drop_zero, e2]
          decide
    · cases hdn : decimal n with
      | nil => exact absurd hdn hne
      | cons c ds =>
        rw [hdn] at hd hh hv
        have hc := hd c (by simp)
        have hc0 : c ≠ 48 := fun h => hz (hh (by rw [h]; rfl))
        have hsp : cSpace c = false := by unfold cSpace; simp; omega
        have hbp : Spec.baseAndPrefix 0 (c :: ds ++ t) = (10, 0) := by
          rw [List.cons_append]
          unfold Spec.baseAndPrefix
          split
          · simp_all
          · simp_all
          · rfl
        unfold Spec.parse
        rw [List.cons_append, List.takeWhile_cons, hsp]
        simp only [Bool.false_eq_true, if_false, List.length_nil, List.drop_zero, List.head?_cons, Option.some.injEq,
          show ¬ c = 45 by omega, show ¬ c = 43 by omega, or_self]
        rw [← List.cons_append, hbp]
        have htw : (c :: ds ++ t).takeWhile (Spec.isDigitIn 10) = c :: ds := by
          apply takeWhile_app
          · intro x hx; rw [isDigitIn_10]; exact hd x hx
          · intro x hx
            rcases ht with rfl | ht
            · simp at hx
            · rw [ht] at hx
              simp only [Option.some.injEq] at hx
              subst hx; decide
        simp only [List.drop_zero, htw, hv]
        simp
  rw [hparse]
  simp only [Spec.unsignedResult, Bool.false_eq_true, if_false]
  rw [if_neg (by omega)]
  simp

theorem aton_round (fuel : Nat) (prev : Option Nat) (n : Nat) (hn : n < 2 ^ 64) (t rest parts : List Nat) (h0 : 0 ∉ t)
    (ht : t = [] ∨ t.head? = some 46) (ht' : t ≠ [46]) (hp : prev ≠ some 45) (hl : parts.length < 4) :
    atonLoop (fuel + 1) prev (decimal n ++ t ++ 0 :: rest) parts =
      match t with
      | [] => atonJoin (parts ++ [n])
      | _ :: t => atonLoop fuel (some 46) (t ++ 0 :: rest) (parts ++ [n]) := by
  rw [atonLoop]
  have hd := decimal_digits n
  have hs := strtoul_decimal n hn t rest h0 ht
  cases hdn : decimal n with
  | nil => exact absurd hdn (decimal_ne_nil n)
  | cons c ds =>
    rw [hdn] at hd hs
    have hc := hd c (by simp)
    have hsp : cSpace c = false := by unfold cSpace; simp; omega
    have hr : Str.rd (c :: ds ++ t ++ 0 :: rest) 0 = .ok c := rfl
    rw [hr]
    simp only [Res.bind, hsp, Bool.false_eq_true, if_false]
    rw [hs]
    simp only
    rw [if_neg (by simp), if_neg hp, if_neg (by omega)]
    have hrd : ∀ i, Str.rd (c :: ds ++ t ++ 0 :: rest) ((c :: ds).length + i) = Str.rd (t ++ 0 :: rest) i := by
      intro i
      unfold Str.rd
      rw [List.append_assoc, List.getElem?_append_right (by omega), Nat.add_sub_cancel_left]
    have hrd0 := hrd 0
    rw [Nat.add_zero] at hrd0
    rw [hrd0, hrd 1]
    have hdrop : (c :: ds ++ t ++ 0 :: rest).drop ((c :: ds).length + 1) = (t ++ 0 :: rest).drop 1 := by
      rw [List.append_assoc, List.drop_append]
      simp
    rw [hdrop]
    cases t with
    | nil => simp [Str.rd]
    | cons x t =>
      simp only [List.head?_cons, Option.some.injEq, reduceCtorEq, false_or] at ht
      subst ht
      cases t with
      | nil => exact absurd rfl ht'
      | cons y t =>
        have hy : y ≠ 0 := fun h => h0 (by simp [h])
        simp [Str.rd, hy]

theorem atonJoin_eq (ns : List Nat) (h1 : ns ≠ []) (h2 : ns.length ≤ 4) : atonJoin ns = .ok (meaning ns) := by
  have m8 : ∀ x, x &&& 255 = x % 256 := fun x => Nat.and_two_pow_sub_one_eq_mod x 8
  have m16 : ∀ x, x &&& 65535 = x % 65536 := fun x => Nat.and_two_pow_sub_one_eq_mod x 16
  have m24 : ∀ x, x &&& 16777215 = x % 16777216 := fun x => Nat.and_two_pow_sub_one_eq_mod x 24
  match ns, h1, h2 with
  | [a], _, _ =>
    simp only [atonJoin, meaning]
    by_cases h : a < 2 ^ 32
    · rw [if_neg (by omega), if_pos h]
    · rw [if_pos (by omega), if_neg h]
  | [a, b], _, _ =>
    simp only [atonJoin, meaning, m8, m24, Nat.shiftLeft_eq]
    by_cases h : a < 256 ∧ b < 2 ^ 24
    · rw [if_neg (by omega), if_pos h, Nat.mod_eq_of_lt (a := a) (by omega), Nat.mod_eq_of_lt (a := b) (by omega),
        Nat.mul_comm a, ← Nat.two_pow_add_eq_or_of_lt (by omega)]
    · rw [if_pos (by omega), if_neg h]
  | [a, b, c], _, _ =>
    simp only [atonJoin, meaning, m8, m16, Nat.shiftLeft_eq]
    by_cases h : a < 256 ∧ b < 256 ∧ c < 2 ^ 16
    · rw [if_neg (by omega), if_pos h, Nat.mod_eq_of_lt (a := a) (by omega), Nat.mod_eq_of_lt (a := b) (by omega),
        Nat.mod_eq_of_lt (a := c) (by omega), Nat.mul_comm a, ← Nat.two_pow_add_eq_or_of_lt (by omega),
        show 2 ^ 24 * a + b * 2 ^ 16 = 2 ^ 16 * (a * 2 ^ 8 + b) by omega, ← Nat.two_pow_add_eq_or_of_lt (by omega)]
    · rw [if_pos (by omega), if_neg h]
  | [a, b, c, d], _, _ =>
    simp only [atonJoin, meaning, m8]
    by_cases h : a < 256 ∧ b < 256 ∧ c < 256 ∧ d < 256
    · have := join4_eq (a := a) h.2.1 h.2.2.1 h.2.2.2
      rw [if_neg (by omega), if_pos h, Nat.mod_eq_of_lt (a := a) (by omega), Nat.mod_eq_of_lt (a := b) (by omega),
        Nat.mod_eq_of_lt (a := c) (by omega), Nat.mod_eq_of_lt (a := d) (by omega), ← this]
      rfl
    · rw [if_pos (by omega), if_neg h]

theorem dots_ok (ns : List Nat) : 0 ∉ dots ns := by
  induction ns with
  | nil => simp [dots]
  | cons n ns ih =>
    have := decimal_digits n
    cases ns with
    | nil => intro h; have := this 0 h; omega
    | cons m ns =>
      intro h
      rw [dots] at h
      · rcases List.mem_append.1 h with h | h
        · have := this 0 h; omega
        · rcases List.mem_cons.1 h with h | h
          · omega
          · exact ih h
      · simp

theorem dots_ne_nil (n : Nat) (ns : List Nat) : dots (n :: ns) ≠ [] := by
  cases ns with
  | nil => exact decimal_ne_nil n
  | cons m ns => rw [dots] <;> simp

theorem aton_dots (ns : List Nat) : ∀ (fuel : Nat) (prev : Option Nat) (parts rest : List Nat), ns ≠ [] → prev ≠ some 45 →
    parts.length + ns.length ≤ 4 → ns.length ≤ fuel → (∀ n ∈ ns, n < 2 ^ 64) →
    atonLoop fuel prev (dots ns ++ 0 :: rest) parts = .ok (meaning (parts ++ ns)) := by
  induction ns with
  | nil => intro _ _ _ _ h; exact absurd rfl h
  | cons n ns ih =>
    intro fuel prev parts rest _ hp hl hf hn
    obtain ⟨fuel, rfl⟩ : ∃ f, fuel = f + 1 := ⟨fuel - 1, by simp at hf; omega⟩
    cases ns with
    | nil =>
      have := aton_round fuel prev n (hn n (by simp)) [] rest parts (by simp) (Or.inl rfl) (by simp) hp (by simp at hl; omega)
      simp only [List.append_nil] at this
      rw [show dots [n] = decimal n from rfl, this, atonJoin_eq _ (by simp) (by simpa using hl)]
    | cons m ns =>
      rw [dots]
      · have := aton_round fuel prev n (hn n (by simp)) (46 :: dots (m :: ns)) rest parts
          (by have := dots_ok (m :: ns); simp [this]) (Or.inr rfl) (by simpa using dots_ne_nil m ns) hp (by simp at hl; omega)
        rw [this]
        simp only
        rw [ih fuel (some 46) (parts ++ [n]) rest (by simp) (by simp) (by simp at hl ⊢; omega) (by simp at hf ⊢; omega)
          (fun k hk => hn k (List.mem_cons_of_mem _ hk))]
        simp
      · simp

/-- C49, `inet_aton`: one to four numbers in decimal, separated by dots, mean what the BSD rules say, and out-of-range
numbers are rejected. -/
theorem aton_decimal (ns rest : List Nat) (h1 : ns ≠ []) (h2 : ns.length ≤ 4) (h3 : ∀ n ∈ ns, n < 2 ^ 64) :
    aton (dots ns ++ 0 :: rest) = .ok (meaning ns) := by
  unfold aton
  rw [aton_dots ns 5 none [] rest h1 (by simp) (by simpa using h2) (by omega) h3]
  rfl

/-- C49: what `inet_ntoa` writes, `inet_aton` reads. -/
theorem aton_ntoa (addr : Nat) (ha : addr < 2 ^ 32) (rest : List Nat) : aton (text4 addr ++ 0 :: rest) = .ok (some addr) := by
  have := aton_decimal [addr / 2 ^ 24 % 256, addr / 2 ^ 16 % 256, addr / 2 ^ 8 % 256, addr % 256] rest (by simp) (by simp)
    (by intro n hn; simp only [List.mem_cons, List.not_mem_nil, or_false] at hn; omega)
  have e : dots [addr / 2 ^ 24 % 256, addr / 2 ^ 16 % 256, addr / 2 ^ 8 % 256, addr % 256] = text4 addr := by
    simp [dots, text4, dotted]
  rw [e] at this
  rw [this]
  simp only [meaning]
  rw [if_pos (by omega)]
  congr 2
  omega

/-- "-18446744073709551615" is accepted as 0.0.0.1: the sign check looks at the character before the number. -/
theorem aton_negative_violated : aton [45, 49, 56, 52, 52, 54, 55, 52, 52, 48, 55, 51, 55, 48, 57, 53, 53, 49, 54, 49, 53, 0] =
    .ok (some 1) := by decide +kernel

end Mlibc.Inet
