import Verif.Base

/-!
C63: static TLS blocks.

Sizes and addresses are natural numbers: the model leaves out layouts whose total size or whose
addresses reach 2^64. `above` tells whether TLS lies above the thread pointer
(options/rtld/generic/linker.cpp L31-47: false on x86, true elsewhere).
-/

namespace Mlibc.Tls

/-! ### The code -/

/-- A PT_TLS segment. options/rtld/generic/linker.cpp L564-568, L748-752 -/
structure Seg where
  size : Nat
  align : Nat
  deriving DecidableEq, Repr

/-- `x & (align - 1)`; with `align = 0` the mask has all bits set. -/
def misalign (x align : Nat) : Nat := if align = 0 then x else x &&& (align - 1)

/-- `if(misalign) x += align - misalign`, an addition that wraps around when `align = 0`.
options/rtld/generic/linker.cpp L1930-1932, L1939-1941, L1972-1974, L1981-1983 -/
def bump (x align : Nat) : Nat := if misalign x align ≠ 0 then x + align - misalign x align else x

/-- Where a segment goes: its offset and the new `initialPtr`.
options/rtld/generic/linker.cpp L1929-1944 and, the same code, L1971-1986 -/
def place (above : Bool) (ptr : Nat) (s : Seg) : Int × Nat :=
  if above then (bump ptr s.align, bump ptr s.align + s.size)
  else (-(bump (ptr + s.size) s.align : Nat), bump (ptr + s.size) s.align)

/-- An object with a place in the static TLS area. -/
structure Block where
  off : Int
  seg : Seg
  deriving DecidableEq, Repr

/-- `RuntimeTlsMap` and `tlsMaxAlignment`. options/rtld/generic/linker.hpp L340-360 -/
structure TlsMap where
  ptr : Nat
  limit : Nat
  maxAlign : Nat
  blocks : List Block
  deriving DecidableEq, Repr

/-- The loop at program start; objects without TLS (`size = 0`) are skipped.
options/rtld/generic/linker.cpp L1913-1951 -/
def placeAll (above : Bool) : List Seg → TlsMap → TlsMap
  | [], m => m
  | s :: ss, m =>
    if s.size = 0 then placeAll above ss m
    else placeAll above ss
      { m with ptr := (place above m.ptr s).2, blocks := ⟨(place above m.ptr s).1, s⟩ :: m.blocks }

/-- The largest alignment, at least 16. options/rtld/generic/linker.cpp L73, L1803-1805 -/
def maxAlign : List Seg → Nat
  | [] => 16
  | s :: ss => if s.align > maxAlign ss then s.align else maxAlign ss

/-- `_buildLinkBfs` and `_buildTlsMaps` at program start.
options/rtld/generic/linker.cpp L1801-1805, L1906-1954 -/
def initialMap (above : Bool) (segs : List Seg) : TlsMap :=
  let m := placeAll above segs { ptr := 0, limit := 0, maxAlign := maxAlign segs, blocks := [] }
  { m with limit := m.ptr + 64 }

/-- dlopen of an object that demands static TLS. options/rtld/generic/linker.cpp L1968-1990 -/
def late (above : Bool) (m : TlsMap) (s : Seg) : Res TlsMap :=
  if (place above m.ptr s).2 > m.limit then .panic
  else .ok { m with ptr := (place above m.ptr s).2, blocks := ⟨(place above m.ptr s).1, s⟩ :: m.blocks }

/-- Several of them. -/
def lateAll (above : Bool) : List Seg → TlsMap → Res TlsMap
  | [], m => .ok m
  | s :: ss, m => (late above m s).bind (lateAll above ss)

/-- `alignUp`; `x & ~(align - 1)` is `x` without its low bits.
options/rtld/generic/linker.cpp L189-191 -/
def alignUp (x align : Nat) : Nat := (x + align - 1) - misalign (x + align - 1) align

/-- `sizeof(Tcb)` and `alignof(Tcb)`. -/
structure TcbType where
  size : Nat
  align : Nat

/-- The size passed to the allocator. options/rtld/generic/linker.cpp L1431-1436 -/
def allocSize (T : TcbType) (m : TlsMap) : Nat := m.limit + T.size + max T.align m.maxAlign

/-- The addresses `allocateTcb` chooses in the memory at `alloc`: the TCB and the TLS area.
options/rtld/generic/linker.cpp L1440-1462 -/
def allocateTcb (above : Bool) (T : TcbType) (m : TlsMap) (alloc : Nat) : Res (Nat × Nat) :=
  if above then
    let (tls, tcb) :=
      if m.maxAlign > T.align then
        (alignUp (alloc + T.size) m.maxAlign, alignUp (alloc + T.size) m.maxAlign - T.size)
      else (alignUp alloc T.align + T.size, alignUp alloc T.align)
    (ensure (decide (misalign tls m.maxAlign = 0))).bind fun _ =>
    (ensure (decide (tls = tcb + T.size))).bind fun _ =>
    (ensure (decide (misalign tcb T.align = 0))).bind fun _ => .ok (tcb, tls)
  else
    let tcb := alignUp (alloc + m.limit) (max T.align m.maxAlign)
    (ensure (decide (misalign tcb T.align = 0))).bind fun _ => .ok (tcb, tcb - m.limit)

/-- Where a thread finds a block. options/rtld/generic/linker.cpp L1408-1413, L1487-1491, L2031-2036 -/
def address (above : Bool) (T : TcbType) (tcb : Nat) (b : Block) : Int :=
  if above then tcb + T.size + b.off else tcb + b.off

/-! ### Specification -/

def Pow2 (n : Nat) : Prop := ∃ k, n = 2 ^ k

/-- The ranges `[a, a + n)` and `[b, b + m)` do not meet. -/
def Disjoint (a : Int) (n : Nat) (b : Int) (m : Nat) : Prop := a + n ≤ b ∨ b + m ≤ a

/-- The ABI facts about the TCB. -/
structure TcbType.Proper (T : TcbType) : Prop where
  pow : Pow2 T.align
  multiple : T.align ∣ T.size

/-- What a thread may rely on: all the blocks and the TCB lie in its memory of `n` bytes at `alloc`, are
aligned, and do not overlap. -/
structure Layout (above : Bool) (T : TcbType) (alloc n tcb : Nat) (bs : List Block) : Prop where
  tcb_in : alloc ≤ tcb ∧ tcb + T.size ≤ alloc + n
  tcb_aligned : T.align ∣ tcb
  inside : ∀ b ∈ bs, (alloc : Int) ≤ address above T tcb b ∧
    address above T tcb b + b.seg.size ≤ alloc + n
  aligned : ∀ b ∈ bs, (b.seg.align : Int) ∣ address above T tcb b
  off_tcb : ∀ b ∈ bs, Disjoint (address above T tcb b) b.seg.size tcb T.size
  apart : bs.Pairwise fun b c =>
    Disjoint (address above T tcb b) b.seg.size (address above T tcb c) c.seg.size

/-! ### Proofs -/

theorem Pow2.pos {n : Nat} (h : Pow2 n) : 0 < n := by
  obtain ⟨k, rfl⟩ := h; exact Nat.two_pow_pos k

theorem Pow2.dvd {m n : Nat} (hm : Pow2 m) (hn : Pow2 n) (h : m ≤ n) : m ∣ n := by
  obtain ⟨a, rfl⟩ := hm
  obtain ⟨b, rfl⟩ := hn
  exact Nat.pow_dvd_pow 2 ((Nat.pow_le_pow_iff_right (by omega)).1 h)

theorem misalign_eq {x a : Nat} (h : Pow2 a) : misalign x a = x % a := by
  have := h.pos
  obtain ⟨k, rfl⟩ := h
  unfold misalign
  rw [if_neg (by omega), Nat.and_two_pow_sub_one_eq_mod]

theorem bump_spec {x a : Nat} (h : Pow2 a) : x ≤ bump x a ∧ bump x a < x + a ∧ a ∣ bump x a := by
  have hp := h.pos
  unfold bump
  rw [misalign_eq h]
  have hlt := Nat.mod_lt x hp
  by_cases h0 : x % a = 0
  · rw [if_neg (by simpa using h0)]
    exact ⟨Nat.le_refl _, by omega, Nat.dvd_of_mod_eq_zero h0⟩
  · rw [if_pos h0]
    refine ⟨by omega, by omega, ?_⟩
    have := Nat.div_add_mod x a
    refine ⟨x / a + 1, ?_⟩
    rw [Nat.mul_add, Nat.mul_one]
    omega

theorem alignUp_spec {x a : Nat} (h : Pow2 a) :
    x ≤ alignUp x a ∧ alignUp x a < x + a ∧ a ∣ alignUp x a := by
  have hp := h.pos
  unfold alignUp
  rw [misalign_eq h]
  have hlt := Nat.mod_lt (x + a - 1) hp
  have := Nat.div_add_mod (x + a - 1) a
  refine ⟨by omega, by omega, ⟨(x + a - 1) / a, by omega⟩⟩

/-- What holds of the map: offsets are relative to the start (above) or the end (below) of the area. -/
structure MInv (above : Bool) (m : TlsMap) : Prop where
  inside : ∀ b ∈ m.blocks,
    if above then 0 ≤ b.off ∧ b.off + b.seg.size ≤ m.ptr else -(m.ptr : Int) ≤ b.off ∧ b.off + b.seg.size ≤ 0
  aligned : ∀ b ∈ m.blocks, (b.seg.align : Int) ∣ b.off
  apart : m.blocks.Pairwise fun b c => Disjoint b.off b.seg.size c.off c.seg.size

theorem place_spec {above : Bool} {m : TlsMap} (hm : MInv above m) {s : Seg} (hs : Pow2 s.align) :
    m.ptr + s.size ≤ (place above m.ptr s).2 ∧
    MInv above { m with ptr := (place above m.ptr s).2,
                        blocks := ⟨(place above m.ptr s).1, s⟩ :: m.blocks } := by
  cases above with
  | true =>
    obtain ⟨h1, h2, h3⟩ := bump_spec (x := m.ptr) hs
    simp only [place, if_true]
    refine ⟨by omega, ?_, ?_, ?_⟩
    · intro b hb
      simp only [if_true]
      rcases List.mem_cons.1 hb with rfl | hb
      · simp only; omega
      · have := hm.inside b hb
        simp only [if_true] at this
        omega
    · intro b hb
      rcases List.mem_cons.1 hb with rfl | hb
      · exact Int.natCast_dvd_natCast.2 h3
      · exact hm.aligned b hb
    · refine List.pairwise_cons.2 ⟨fun b hb => ?_, hm.apart⟩
      have := hm.inside b hb
      simp only [if_true] at this
      unfold Disjoint
      simp only
      omega
  | false =>
    obtain ⟨h1, h2, h3⟩ := bump_spec (x := m.ptr + s.size) hs
    simp only [place, Bool.false_eq_true, if_false]
    refine ⟨by omega, ?_, ?_, ?_⟩
    · intro b hb
      simp only [Bool.false_eq_true, if_false]
      rcases List.mem_cons.1 hb with rfl | hb
      · simp only; omega
      · have := hm.inside b hb
        simp only [Bool.false_eq_true, if_false] at this
        omega
    · intro b hb
      rcases List.mem_cons.1 hb with rfl | hb
      · exact Int.dvd_neg.2 (Int.natCast_dvd_natCast.2 h3)
      · exact hm.aligned b hb
    · refine List.pairwise_cons.2 ⟨fun b hb => ?_, hm.apart⟩
      have := hm.inside b hb
      simp only [Bool.false_eq_true, if_false] at this
      unfold Disjoint
      simp only
      omega

theorem placeAll_spec {above : Bool} (segs : List Seg) (m : TlsMap) (hm : MInv above m)
    (hs : ∀ s ∈ segs, s.size ≠ 0 → Pow2 s.align) :
    MInv above (placeAll above segs m) ∧ (placeAll above segs m).maxAlign = m.maxAlign ∧
    (placeAll above segs m).blocks.map Block.seg =
      (segs.filter (·.size ≠ 0)).reverse ++ m.blocks.map Block.seg := by
  induction segs generalizing m with
  | nil => exact ⟨hm, rfl, by simp [placeAll]⟩
  | cons s ss ih =>
    have hss : ∀ s ∈ ss, s.size ≠ 0 → Pow2 s.align := fun x hx => hs x (by simp [hx])
    by_cases h0 : s.size = 0
    · simp only [placeAll, if_pos h0]
      obtain ⟨a, b, c⟩ := ih m hm hss
      refine ⟨a, b, ?_⟩
      rw [c]
      simp [h0]
    · simp only [placeAll, if_neg h0]
      obtain ⟨a, b, c⟩ := ih _ (place_spec hm (hs s (by simp) h0)).2 hss
      refine ⟨a, b, ?_⟩
      rw [c]
      simp [h0]

theorem maxAlign_spec (segs : List Seg) (hs : ∀ s ∈ segs, s.align = 0 ∨ Pow2 s.align) :
    Pow2 (maxAlign segs) ∧ ∀ s ∈ segs, s.align ≤ maxAlign segs := by
  induction segs with
  | nil => exact ⟨⟨4, rfl⟩, by simp⟩
  | cons s ss ih =>
    obtain ⟨h1, h2⟩ := ih fun x hx => hs x (by simp [hx])
    have hp := h1.pos
    simp only [maxAlign]
    by_cases h : s.align > maxAlign ss
    · rw [if_pos h]
      refine ⟨(hs s (by simp)).resolve_left (by omega), fun x hx => ?_⟩
      rcases List.mem_cons.1 hx with rfl | hx
      · exact Nat.le_refl _
      · have := h2 x hx; omega
    · rw [if_neg h]
      refine ⟨h1, fun x hx => ?_⟩
      rcases List.mem_cons.1 hx with rfl | hx
      · omega
      · exact h2 x hx

theorem lateAll_spec {above : Bool} (segs : List Seg) (m : TlsMap) (hm : MInv above m)
    (hp : m.ptr ≤ m.limit) (hs : ∀ s ∈ segs, Pow2 s.align) :
    match lateAll above segs m with
    | .ok m' => MInv above m' ∧ m'.ptr ≤ m'.limit ∧ m'.limit = m.limit ∧ m'.maxAlign = m.maxAlign ∧
        m'.blocks.map Block.seg = segs.reverse ++ m.blocks.map Block.seg
    | .panic => True
    | .ub => False := by
  induction segs generalizing m with
  | nil => exact ⟨hm, hp, rfl, rfl, by simp⟩
  | cons s ss ih =>
    simp only [lateAll, late]
    by_cases h : (place above m.ptr s).2 > m.limit
    · simp only [if_pos h, Res.bind]
    · simp only [if_neg h, Res.bind]
      have := ih { m with ptr := (place above m.ptr s).2,
                          blocks := ⟨(place above m.ptr s).1, s⟩ :: m.blocks }
        (place_spec hm (hs s (by simp))).2 (by simpa using h) (fun x hx => hs x (by simp [hx]))
      revert this
      split
      · rintro ⟨a, b, c, d, e⟩
        refine ⟨a, b, c, d, ?_⟩
        rw [e]; simp
      · exact fun _ => trivial
      · exact id

/-- The TCB is placed so that the area of `limit` bytes next to it is in the allocation. -/
theorem allocateTcb_spec {above : Bool} {T : TcbType} (hT : T.Proper) {m : TlsMap}
    (hm : Pow2 m.maxAlign) (alloc : Nat) :
    ∃ tcb tls, allocateTcb above T m alloc = .ok (tcb, tls) ∧
      alloc ≤ tcb ∧ tcb + T.size ≤ alloc + allocSize T m ∧ T.align ∣ tcb ∧
      alloc ≤ tls ∧ tls + m.limit ≤ alloc + allocSize T m ∧
      (if above then tls = tcb + T.size ∧ m.maxAlign ∣ tls else tcb = tls + m.limit ∧ m.maxAlign ∣ tcb) := by
  have hTp := hT.pow.pos
  have hmp := hm.pos
  unfold allocSize
  cases above with
  | true =>
    by_cases h : m.maxAlign > T.align
    · have hd : T.align ∣ m.maxAlign := hT.pow.dvd hm (by omega)
      obtain ⟨h1, h2, h3⟩ := alignUp_spec (x := alloc + T.size) hm
      have hmax : max T.align m.maxAlign = m.maxAlign := by omega
      have ha : T.align ∣ alignUp (alloc + T.size) m.maxAlign - T.size :=
        Nat.dvd_sub (Nat.dvd_trans hd h3) hT.multiple
      refine ⟨alignUp (alloc + T.size) m.maxAlign - T.size, alignUp (alloc + T.size) m.maxAlign, ?_, ?_⟩
      · simp only [allocateTcb, if_true, if_pos h, misalign_eq hm, misalign_eq hT.pow,
          Nat.mod_eq_zero_of_dvd h3, Nat.mod_eq_zero_of_dvd ha, decide_true, ensure_true, Res.bind]
        rw [decide_eq_true (by omega)]
        rfl
      · rw [hmax]
        refine ⟨by omega, by omega, ha, by omega, by omega, ?_⟩
        simp only [if_true]
        exact ⟨by omega, h3⟩
    · have hd : m.maxAlign ∣ T.align := hm.dvd hT.pow (by omega)
      obtain ⟨h1, h2, h3⟩ := alignUp_spec (x := alloc) hT.pow
      have hmax : max T.align m.maxAlign = T.align := by omega
      have ha : m.maxAlign ∣ alignUp alloc T.align + T.size :=
        Nat.dvd_trans hd (Nat.dvd_add h3 hT.multiple)
      refine ⟨alignUp alloc T.align, alignUp alloc T.align + T.size, ?_, ?_⟩
      · simp only [allocateTcb, if_true, if_neg h, misalign_eq hm, misalign_eq hT.pow,
          Nat.mod_eq_zero_of_dvd h3, Nat.mod_eq_zero_of_dvd ha, decide_true, ensure_true, Res.bind]
      · rw [hmax]
        refine ⟨by omega, by omega, h3, by omega, by omega, ?_⟩
        simp only [if_true]
        exact ⟨trivial, ha⟩
  | false =>
    have hM : Pow2 (max T.align m.maxAlign) := by
      rcases Nat.le_total T.align m.maxAlign with h | h
      · rw [Nat.max_eq_right h]; exact hm
      · rw [Nat.max_eq_left h]; exact hT.pow
    have hd1 : T.align ∣ max T.align m.maxAlign := hT.pow.dvd hM (by omega)
    have hd2 : m.maxAlign ∣ max T.align m.maxAlign := hm.dvd hM (by omega)
    obtain ⟨h1, h2, h3⟩ := alignUp_spec (x := alloc + m.limit) hM
    refine ⟨alignUp (alloc + m.limit) (max T.align m.maxAlign),
      alignUp (alloc + m.limit) (max T.align m.maxAlign) - m.limit, ?_, ?_⟩
    · simp only [allocateTcb, Bool.false_eq_true, if_false, misalign_eq hT.pow,
        Nat.mod_eq_zero_of_dvd (Nat.dvd_trans hd1 h3), decide_true, ensure_true, Res.bind]
    · refine ⟨by omega, by omega, Nat.dvd_trans hd1 h3, by omega, by omega, ?_⟩
      simp only [Bool.false_eq_true, if_false]
      exact ⟨by omega, Nat.dvd_trans hd2 h3⟩

theorem layout_of_map {above : Bool} {T : TcbType} (hT : T.Proper) {m : TlsMap} (hm : MInv above m)
    (hmax : Pow2 m.maxAlign) (hp : m.ptr ≤ m.limit)
    (hal : ∀ b ∈ m.blocks, Pow2 b.seg.align ∧ b.seg.align ≤ m.maxAlign) (alloc : Nat) :
    ∃ tcb tls, allocateTcb above T m alloc = .ok (tcb, tls) ∧
      Layout above T alloc (allocSize T m) tcb m.blocks := by
  obtain ⟨tcb, tls, e, h1, h2, h3, h4, h5, h6⟩ := allocateTcb_spec (above := above) hT hmax alloc
  refine ⟨tcb, tls, e, ?_⟩
  have hin : ∀ b ∈ m.blocks, (tls : Int) ≤ address above T tcb b ∧
      address above T tcb b + b.seg.size ≤ tls + m.limit := by
    intro b hb
    have := hm.inside b hb
    cases above with
    | true =>
      simp only [if_true, address] at *
      omega
    | false =>
      simp only [Bool.false_eq_true, if_false, address] at *
      omega
  have hal' : ∀ b ∈ m.blocks, (b.seg.align : Int) ∣ address above T tcb b := by
    intro b hb
    have hd : b.seg.align ∣ m.maxAlign := (hal b hb).1.dvd hmax (hal b hb).2
    have ho := hm.aligned b hb
    cases above with
    | true =>
      simp only [if_true, address] at *
      have := Nat.dvd_trans hd h6.2
      rw [h6.1] at this
      exact Int.dvd_add (by exact_mod_cast this) ho
    | false =>
      simp only [Bool.false_eq_true, if_false, address] at *
      have := Nat.dvd_trans hd h6.2
      exact Int.dvd_add (by exact_mod_cast this) ho
  refine ⟨⟨h1, h2⟩, h3, ?_, hal', ?_, ?_⟩
  · intro b hb
    have := hin b hb
    omega
  · intro b hb
    have := hin b hb
    unfold Disjoint
    cases above with
    | true => simp only [if_true] at h6; omega
    | false => simp only [Bool.false_eq_true, if_false] at h6; omega
  · refine hm.apart.imp ?_
    intro b c h
    unfold Disjoint address at *
    cases above with
    | true => simp only [if_true]; omega
    | false => simp only [Bool.false_eq_true, if_false]; omega

/-- C63: for every list of TLS segments of the objects present at program start, every memory a thread is
given has room for all of them and the TCB, aligned and apart; this stays true after objects with static
TLS were loaded later, which never makes a thread's memory overflow. (A later object whose alignment
exceeds all the earlier ones is excluded, see `late_alignment_violated`, and so is alignment 0, see
`align_zero_violated`.) -/
theorem tls_layout_partial (above : Bool) (T : TcbType) (hT : T.Proper) (segs laters : List Seg)
    (hs : ∀ s ∈ segs, s.size = 0 ∧ s.align = 0 ∨ Pow2 s.align)
    (hl : ∀ s ∈ laters, Pow2 s.align ∧ s.align ≤ maxAlign segs) :
    lateAll above laters (initialMap above segs) = .panic ∨
    ∃ m, lateAll above laters (initialMap above segs) = .ok m ∧
      m.blocks.map Block.seg = laters.reverse ++ (segs.filter (·.size ≠ 0)).reverse ∧
      allocSize T m = allocSize T (initialMap above segs) ∧
      ∀ alloc, ∃ tcb tls, allocateTcb above T m alloc = .ok (tcb, tls) ∧
        allocateTcb above T (initialMap above segs) alloc = .ok (tcb, tls) ∧
        Layout above T alloc (allocSize T (initialMap above segs)) tcb m.blocks := by
  obtain ⟨hmax, hle⟩ := maxAlign_spec segs fun s h => (hs s h).imp_left (·.2)
  obtain ⟨hi, hma, hbl⟩ := placeAll_spec (above := above) segs
    { ptr := 0, limit := 0, maxAlign := maxAlign segs, blocks := [] } ⟨by simp, by simp, by simp⟩
    (fun s h h0 => (hs s h).resolve_left fun h' => h0 h'.1)
  have hi' : MInv above (initialMap above segs) := ⟨hi.inside, hi.aligned, hi.apart⟩
  have hma' : (initialMap above segs).maxAlign = maxAlign segs := hma
  have hbl' : (initialMap above segs).blocks.map Block.seg = (segs.filter (·.size ≠ 0)).reverse := by
    rw [List.map_nil, List.append_nil] at hbl
    exact hbl
  have hp : (initialMap above segs).ptr ≤ (initialMap above segs).limit :=
    Nat.le_add_right _ 64
  have := lateAll_spec (above := above) laters _ hi' hp fun s h => (hl s h).1
  cases e : lateAll above laters (initialMap above segs) with
  | ub => rw [e] at this; exact this.elim
  | panic => exact .inl rfl
  | ok m =>
    rw [e] at this
    obtain ⟨h1, h2, h3, h4, h5⟩ := this
    right
    have hsize : allocSize T m = allocSize T (initialMap above segs) := by
      unfold allocSize; rw [h3, h4]
    refine ⟨m, rfl, by rw [h5, hbl'], hsize, fun alloc => ?_⟩
    have hal : ∀ b ∈ m.blocks, Pow2 b.seg.align ∧ b.seg.align ≤ m.maxAlign := by
      intro b hb
      have hb' : b.seg ∈ m.blocks.map Block.seg := List.mem_map_of_mem hb
      rw [h5, hbl', List.mem_append, List.mem_reverse, List.mem_reverse, List.mem_filter] at hb'
      rw [h4, hma']
      rcases hb' with hb' | ⟨hb', h0⟩
      · exact hl _ hb'
      · exact ⟨(hs _ hb').resolve_left fun h' => by simp [h'.1] at h0, hle _ hb'⟩
    obtain ⟨tcb, tls, ea, hL⟩ := layout_of_map hT h1 (by rw [h4, hma']; exact hmax) h2 hal alloc
    refine ⟨tcb, tls, ea, ?_, hsize ▸ hL⟩
    rw [← ea]
    simp only [allocateTcb, h3, h4]

/-- Three objects at start, one of them without TLS, and one loaded later. -/
example : (⟨96, 16⟩ : TcbType).Proper ∧
    (∀ s ∈ [Seg.mk 100 8, ⟨0, 0⟩, ⟨40, 64⟩], s.size = 0 ∧ s.align = 0 ∨ Pow2 s.align) ∧
    (∀ s ∈ [Seg.mk 24 8], Pow2 s.align ∧ s.align ≤ maxAlign [⟨100, 8⟩, ⟨0, 0⟩, ⟨40, 64⟩]) ∧
    lateAll false [⟨24, 8⟩] (initialMap false [⟨100, 8⟩, ⟨0, 0⟩, ⟨40, 64⟩]) =
      .ok ⟨216, 256, 64, [⟨-216, ⟨24, 8⟩⟩, ⟨-192, ⟨40, 64⟩⟩, ⟨-104, ⟨100, 8⟩⟩]⟩ := by
  refine ⟨⟨⟨4, rfl⟩, by decide⟩, ?_, ?_, by decide⟩
  · intro s hs
    simp only [List.mem_cons, List.not_mem_nil, or_false] at hs
    rcases hs with rfl | rfl | rfl
    · exact .inr ⟨3, rfl⟩
    · exact .inl ⟨rfl, rfl⟩
    · exact .inr ⟨6, rfl⟩
  · intro s hs
    simp only [List.mem_cons, List.not_mem_nil, or_false] at hs
    subst hs
    exact ⟨⟨3, rfl⟩, by decide⟩

/-- C63: a later object with static TLS is granted exactly if it fits into what is left of the reserve of
64 bytes, counting the padding its alignment needs; otherwise the process aborts. -/
theorem late_exact (above : Bool) (m : TlsMap) (s : Seg) (hs : Pow2 s.align) :
    let need := if above then (m.ptr + s.align - 1) / s.align * s.align + s.size
      else (m.ptr + s.size + s.align - 1) / s.align * s.align
    (need ≤ m.limit → ∃ m', late above m s = .ok m' ∧ m'.ptr = need) ∧
    (m.limit < need → late above m s = .panic) := by
  have hb : ∀ x, bump x s.align = (x + s.align - 1) / s.align * s.align := by
    intro x
    have hp := hs.pos
    obtain ⟨h1, h2, k, h3⟩ := bump_spec (x := x) hs
    have : (x + s.align - 1) / s.align = k := by
      rw [h3] at h1 h2
      apply Nat.div_eq_of_lt_le
      · rw [Nat.mul_comm]; omega
      · rw [Nat.succ_mul, Nat.mul_comm]; omega
    rw [this, h3, Nat.mul_comm]
  have e : (place above m.ptr s).2 = if above then (m.ptr + s.align - 1) / s.align * s.align + s.size
      else (m.ptr + s.size + s.align - 1) / s.align * s.align := by
    unfold place
    cases above <;> simp [hb]
  intro need
  refine ⟨fun h => ?_, fun h => ?_⟩
  · refine ⟨_, if_neg (by rw [e]; exact Nat.not_lt.2 h), e⟩
  · exact if_pos (by rw [e]; exact h)

example : late true ⟨104, 168, 64, []⟩ ⟨8, 16⟩ = .ok ⟨120, 168, 64, [⟨112, ⟨8, 16⟩⟩]⟩ ∧
    late true ⟨104, 168, 64, []⟩ ⟨70, 16⟩ = .panic := by decide

/-- C63 does not hold for objects loaded later with an alignment larger than all before: a program without
TLS, an object with 8 bytes aligned to 64 loaded later, and a thread whose memory lies at 16. The block is
at 16, not a multiple of 64. -/
theorem late_alignment_violated :
    ∃ m tcb tls, lateAll false [⟨8, 64⟩] (initialMap false []) = .ok m ∧
      allocateTcb false ⟨96, 16⟩ m 16 = .ok (tcb, tls) ∧
      m.blocks.map (address false ⟨96, 16⟩ tcb) = [16] :=
  ⟨_, 80, 16, rfl, by decide, by decide⟩

/-- C63 does not hold for segments with alignment 0, which ELF defines to mean no alignment: both blocks
of this program are placed over the TCB. -/
theorem align_zero_violated :
    (initialMap false [⟨8, 0⟩, ⟨8, 0⟩]).blocks = [⟨0, ⟨8, 0⟩⟩, ⟨0, ⟨8, 0⟩⟩] := by decide

end Mlibc.Tls
