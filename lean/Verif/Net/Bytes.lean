import Verif.Base

/-!
# Numbers in messages, and bytes in pairs

`ns_get16`, `ns_get32`, `ns_put16` and `ns_put32`, options/bsd/generic/arpa-nameser.cpp L7-26; `swab`,
options/posix/generic/unistd.cpp L774-781.
-/

namespace Mlibc.NetBytes

/-! ## Specification -/

/-- The number that bytes stand for, the most significant first. -/
def number : List Nat → Nat
  | bs => bs.foldl (fun v b => 256 * v + b) 0

/-- Bytes with each pair swapped; a last one without a partner is left out. -/
def swapped : List Nat → List Nat
  | a :: b :: r => b :: a :: swapped r
  | _ => []

/-! ## The code -/

/-- A byte of memory, as in arpa-nameser.cpp L8 and unistd.cpp L778. -/
def rd (m : List Nat) (i : Nat) : Res Nat := match m[i]? with | some b => .ok b | none => .ub

/-- A byte stored to memory, as in arpa-nameser.cpp L16 and unistd.cpp L778; the code stores into `unsigned char`. -/
def wr (m : List Nat) (i v : Nat) : Res (List Nat) := if i < m.length then .ok (m.set i (v % 256)) else .ub

/-- arpa-nameser.cpp L7-9: the value is an `int`, made `unsigned`. -/
def nsGet16 (m : List Nat) (p : Nat) : Res Nat :=
  (rd m p).bind fun a => (rd m (p + 1)).bind fun b => .ok ((a <<< 8) ||| b)

/-- arpa-nameser.cpp L11-13: the first byte is `unsigned`, so that its shift has 32 bits. -/
def nsGet32 (m : List Nat) (p : Nat) : Res Nat :=
  (rd m p).bind fun a => (rd m (p + 1)).bind fun b => (rd m (p + 2)).bind fun c => (rd m (p + 3)).bind fun d =>
  .ok ((((a <<< 24 % 2 ^ 32) ||| (b <<< 16)) ||| (c <<< 8)) ||| d)

/-- arpa-nameser.cpp L15-18 -/
def nsPut16 (m : List Nat) (s p : Nat) : Res (List Nat) := (wr m p (s >>> 8)).bind fun m => wr m (p + 1) s

/-- arpa-nameser.cpp L20-25 -/
def nsPut32 (m : List Nat) (l p : Nat) : Res (List Nat) :=
  (wr m p (l >>> 24)).bind fun m => (wr m (p + 1) (l >>> 16)).bind fun m => (wr m (p + 2) (l >>> 8)).bind fun m => wr m (p + 3) l

/-- unistd.cpp L777-780, at most `fuel` rounds -/
def swabLoop (src : List Nat) (n : Int) : Nat → Nat → List Nat → Res (List Nat)
  | 0, _, _ => .ub
  | fuel + 1, i, dest =>
    if (i : Int) < n ∧ n - i > 1 then
      (rd src (i + 1)).bind fun a => (wr dest i a).bind fun dest =>
      (rd src i).bind fun b => (wr dest (i + 1) b).bind fun dest => swabLoop src n fuel (i + 2) dest
    else .ok dest

/-- unistd.cpp L774-781; source and destination do not overlap (`restrict`). -/
def swab (src dest : List Nat) (n : Int) : Res (List Nat) := swabLoop src n (n.toNat + 1) 0 dest

/-! ## Theorems -/

theorem rd_at (pre bs post : List Nat) (k b : Nat) (h : bs[k]? = some b) : rd (pre ++ bs ++ post) (pre.length + k) = .ok b := by
  have hk : k < bs.length := by
    rcases Nat.lt_or_ge k bs.length with h' | h'
    · exact h'
    · rw [List.getElem?_eq_none h'] at h; exact absurd h (by simp)
  unfold rd
  rw [List.append_assoc, List.getElem?_append_right (by omega), show pre.length + k - pre.length = k by omega,
    List.getElem?_append_left hk, h]

theorem wr_at (pre bs post : List Nat) (k v : Nat) (h : k < bs.length) :
    wr (pre ++ bs ++ post) (pre.length + k) v = .ok (pre ++ bs.set k (v % 256) ++ post) := by
  unfold wr
  rw [if_pos (by simp; omega), List.append_assoc, List.set_append_right _ _ (by omega),
    show pre.length + k - pre.length = k by omega, List.set_append_left _ _ h, List.append_assoc]

theorem or_add (a b k : Nat) (h : b < 2 ^ k) : (a <<< k) ||| b = 2 ^ k * a + b := by
  rw [← Nat.shiftLeft_add_eq_or_of_lt h, Nat.shiftLeft_eq, Nat.mul_comm]

/-- **C130.** `ns_get16` gives the number that two bytes stand for, wherever they are. -/
theorem ns_get16_value (pre post : List Nat) (a b : Nat) (_ha : a < 256) (hb : b < 256) :
    nsGet16 (pre ++ [a, b] ++ post) pre.length = .ok (number [a, b]) := by
  have e0 := rd_at pre [a, b] post 0 a rfl
  have e1 := rd_at pre [a, b] post 1 b rfl
  rw [Nat.add_zero] at e0
  unfold nsGet16
  rw [e0]; simp only [Res.bind]
  rw [e1]; simp only [Res.bind]
  rw [or_add a b 8 hb]
  simp [number]

/-- **C130.** `ns_get32` gives the number that four bytes stand for. -/
theorem ns_get32_value (pre post : List Nat) (a b c d : Nat) (ha : a < 256) (hb : b < 256) (hc : c < 256) (hd : d < 256) :
    nsGet32 (pre ++ [a, b, c, d] ++ post) pre.length = .ok (number [a, b, c, d]) := by
  have e0 := rd_at pre [a, b, c, d] post 0 a rfl
  have e1 := rd_at pre [a, b, c, d] post 1 b rfl
  have e2 := rd_at pre [a, b, c, d] post 2 c rfl
  have e3 := rd_at pre [a, b, c, d] post 3 d rfl
  rw [Nat.add_zero] at e0
  unfold nsGet32
  rw [e0]; simp only [Res.bind]
  rw [e1]; simp only [Res.bind]
  rw [e2]; simp only [Res.bind]
  rw [e3]; simp only [Res.bind]
  have hm : a <<< 24 % 2 ^ 32 = a <<< 24 := Nat.mod_eq_of_lt (by rw [Nat.shiftLeft_eq]; omega)
  have h1 : c <<< 8 ||| d = 256 * c + d := or_add c d 8 hd
  have h2 : b <<< 16 ||| (256 * c + d) = 65536 * b + (256 * c + d) := or_add b _ 16 (by omega)
  have h3 : a <<< 24 ||| (65536 * b + (256 * c + d)) = 16777216 * a + (65536 * b + (256 * c + d)) := or_add a _ 24 (by omega)
  rw [hm, Nat.or_assoc, Nat.or_assoc, h1, h2, h3]
  have h4 : number [a, b, c, d] = 256 * (256 * (256 * (256 * 0 + a) + b) + c) + d := rfl
  have h5 : 16777216 * a + (65536 * b + (256 * c + d)) = 256 * (256 * (256 * (256 * 0 + a) + b) + c) + d := by omega
  rw [h4, h5]

/-- **C130.** `ns_put16` stores two bytes that stand for the number modulo 2^16, and nothing else changes. -/
theorem ns_put16_bytes (pre post : List Nat) (x y s : Nat) :
    ∃ a b, nsPut16 (pre ++ [x, y] ++ post) s pre.length = .ok (pre ++ [a, b] ++ post) ∧ a < 256 ∧ b < 256 ∧
      number [a, b] = s % 2 ^ 16 := by
  refine ⟨s >>> 8 % 256, s % 256, ?_, by omega, by omega, ?_⟩
  · have e0 := wr_at pre [x, y] post 0 (s >>> 8) (by simp)
    rw [Nat.add_zero] at e0
    unfold nsPut16
    rw [e0]; simp only [Res.bind, List.set]
    exact wr_at pre [s >>> 8 % 256, y] post 1 s (by simp)
  · simp only [number, List.foldl, Nat.shiftRight_eq_div_pow]
    omega

/-- **C130.** `ns_put32` stores four bytes that stand for the number modulo 2^32 (`unsigned long` may have more bits). -/
theorem ns_put32_bytes (pre post : List Nat) (x y z u l : Nat) :
    ∃ a b c d, nsPut32 (pre ++ [x, y, z, u] ++ post) l pre.length = .ok (pre ++ [a, b, c, d] ++ post) ∧
      a < 256 ∧ b < 256 ∧ c < 256 ∧ d < 256 ∧ number [a, b, c, d] = l % 2 ^ 32 := by
  refine ⟨l >>> 24 % 256, l >>> 16 % 256, l >>> 8 % 256, l % 256, ?_, by omega, by omega, by omega, by omega, ?_⟩
  · have e0 := wr_at pre [x, y, z, u] post 0 (l >>> 24) (by simp)
    rw [Nat.add_zero] at e0
    unfold nsPut32
    rw [e0]; simp only [Res.bind, List.set]
    rw [wr_at pre [l >>> 24 % 256, y, z, u] post 1 (l >>> 16) (by simp)]; simp only [Res.bind, List.set]
    rw [wr_at pre [l >>> 24 % 256, l >>> 16 % 256, z, u] post 2 (l >>> 8) (by simp)]; simp only [Res.bind, List.set]
    exact wr_at pre [l >>> 24 % 256, l >>> 16 % 256, l >>> 8 % 256, u] post 3 l (by simp)
  · simp only [number, List.foldl, Nat.shiftRight_eq_div_pow]
    omega

/-- **C130.** What has been put is what one gets. -/
theorem ns_round_trip (pre post : List Nat) (x y z u s l : Nat) (hs : s < 2 ^ 16) (hl : l < 2 ^ 32) :
    ((nsPut16 (pre ++ [x, y] ++ post) s pre.length).bind fun m => nsGet16 m pre.length) = .ok s ∧
    ((nsPut32 (pre ++ [x, y, z, u] ++ post) l pre.length).bind fun m => nsGet32 m pre.length) = .ok l := by
  constructor
  · obtain ⟨a, b, h, ha, hb, hn⟩ := ns_put16_bytes pre post x y s
    rw [h]; simp only [Res.bind]
    rw [ns_get16_value pre post a b ha hb, hn, Nat.mod_eq_of_lt hs]
  · obtain ⟨a, b, c, d, h, ha, hb, hc, hd, hn⟩ := ns_put32_bytes pre post x y z u l
    rw [h]; simp only [Res.bind]
    rw [ns_get32_value pre post a b c d ha hb hc hd, hn, Nat.mod_eq_of_lt hl]

example : nsGet32 [7, 0xFE, 0xDC, 0xBA, 0x98, 7] 1 = .ok 0xFEDCBA98 ∧ nsPut16 [7, 7, 7, 7] 0xABCD 1 = .ok [7, 0xAB, 0xCD, 7] := by
  decide

theorem swab_loop (fuel : Nat) : ∀ (spre s sp dpre d dp : List Nat), spre.length = dpre.length → s.length = d.length →
    (∀ b ∈ s, b < 256) → s.length < fuel →
    swabLoop (spre ++ s ++ sp) ((spre.length : Int) + s.length) fuel spre.length (dpre ++ d ++ dp) =
      .ok (dpre ++ (swapped s ++ d.drop (swapped s).length) ++ dp) := by
  induction fuel with
  | zero => intros; omega
  | succ fuel ih =>
    intro spre s sp dpre d dp hp hd hb hf
    unfold swabLoop
    match s, d, hd with
    | [], [], _ => rw [if_neg (by simp)]; simp [swapped]
    | [a], [x], _ => rw [if_neg (by simp; omega)]; simp [swapped]
    | a :: b :: s, x :: y :: d, hd =>
      have ha : a < 256 := hb a (by simp)
      have hb' : b < 256 := hb b (by simp)
      rw [if_pos (by simp; omega)]
      rw [rd_at spre (a :: b :: s) sp 1 b rfl]; simp only [Res.bind]
      have e0 := wr_at dpre (x :: y :: d) dp 0 b (by simp)
      rw [Nat.add_zero, ← hp] at e0
      rw [e0]; simp only [Res.bind, List.set]
      have e1 := rd_at spre (a :: b :: s) sp 0 a rfl
      rw [Nat.add_zero] at e1
      rw [e1]; simp only [Res.bind]
      have e2 := wr_at dpre (b % 256 :: y :: d) dp 1 a (by simp)
      rw [← hp] at e2
      rw [e2]; simp only [Res.bind, List.set]
      rw [Nat.mod_eq_of_lt ha, Nat.mod_eq_of_lt hb']
      have := ih (spre ++ [a, b]) s sp (dpre ++ [b, a]) d dp (by simp [hp]) (by simpa using hd)
        (fun c hc => hb c (by simp [hc])) (by simp at hf; omega)
      simp only [List.length_append, List.length_cons, List.length_nil, List.append_assoc, List.cons_append, List.nil_append] at this
      simp only [List.length_cons, swapped, List.drop_succ_cons, List.append_assoc, List.cons_append, List.nil_append]
      rw [← this]
      congr 1
      push_cast
      omega

/-- **C131.** `swab` of `n` bytes: the pairs of the first `n` bytes of the source, each swapped, are at the start of the destination;
    the last byte of an odd number is not copied, and all other memory stays as it is. -/
theorem swab_spec (s sp d dp : List Nat) (hd : s.length = d.length) (hb : ∀ b ∈ s, b < 256) :
    swab (s ++ sp) (d ++ dp) s.length = .ok (swapped s ++ d.drop (swapped s).length ++ dp) := by
  have := swab_loop (s.length + 1) [] s sp [] d dp rfl hd hb (by omega)
  simpa [swab] using this

/-- **C131.** A negative number copies nothing. -/
theorem swab_negative (s d : List Nat) (n : Int) (h : n < 0) : swab s d n = .ok d := by
  unfold swab swabLoop
  rw [if_neg (by omega)]

/-- **C131.** The number of bytes stored is the largest even number that is not more than `n`, and swapping twice gives the bytes back. -/
theorem swapped_spec (s : List Nat) : (swapped s).length = s.length / 2 * 2 ∧ swapped (swapped s) = s.take (s.length / 2 * 2) := by
  induction s using swapped.induct with
  | case1 a b r ih =>
    simp only [swapped, List.length_cons]
    rw [show (r.length + 1 + 1) / 2 * 2 = r.length / 2 * 2 + 1 + 1 by omega]
    simp [ih.1, ih.2]
  | case2 s h =>
    match s, h with
    | [], _ => simp [swapped]
    | [a], _ => simp [swapped]
    | a :: b :: r, h => exact absurd rfl (h a b r)

example : swab [1, 2, 3, 4, 5, 6] [9, 9, 9, 9, 9, 9] 5 = .ok [2, 1, 4, 3, 9, 9] := by decide

end Mlibc.NetBytes
