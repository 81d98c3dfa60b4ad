import Verif.Base

/-!
# `writev` where the system has no such call

options/posix/generic/sys-uio.cpp L25-66: the buffers are copied into one, which is written with one `write`.
-/
namespace Mlibc.Writev

/-! ## Specification -/

/-- What `writev` can do. -/
inductive Out
  | einval
  | write (data : List Nat)
deriving DecidableEq, Repr

/-- The data of all buffers, one after the other, in one `write`, which is atomic if `write` is; EINVAL if it is
    more than `ssize_t` can count, or if the number of buffers is not positive. -/
def Spec (iovc : Int) (bufs : List (List Nat)) (o : Out) : Prop :=
  (iovc ≤ 0 → o = .einval) ∧
  (0 < iovc → 9223372036854775807 < bufs.flatten.length → o = .einval) ∧
  (0 < iovc → bufs.flatten.length ≤ 9223372036854775807 → o = .write bufs.flatten)

/-! ## The code -/

/-- sys-uio.cpp L42-48, from the `size_t` number of bytes so far. -/
def total (bytes : Nat) : List (List Nat) → Option Nat
  | [] => some bytes
  | b :: bs => if (2 ^ 63 - 1 + 2 ^ 64 - bytes) % 2 ^ 64 < b.length then none else total ((bytes + b.length) % 2 ^ 64) bs

/-- sys-uio.cpp L53-62: copies to the buffer at `pos`; `buf` has the bytes of `buffer`.  A copy that goes beyond
    the buffer is undefined behaviour. -/
def gather (buf : List Nat) (pos toCopy : Nat) : List (List Nat) → Res (List Nat)
  | [] => .ok buf
  | b :: bs =>
    let copy := min b.length toCopy                                              -- L55
    if pos + copy > buf.length then .ub
    else
      let buf' := buf.take pos ++ b.take copy ++ buf.drop (pos + copy)           -- L57
      if toCopy - copy = 0 then .ok buf'                                         -- L59-61
      else gather buf' (pos + copy) (toCopy - copy) bs

/-- sys-uio.cpp L25-66 `writev`, when `Writev` is not implemented; what the one call of `write` gives is what
    `writev` gives.  `bufs` are the `iovc` buffers (none for a negative number). -/
def writev (iovc : Int) (bufs : List (List Nat)) : Res Out := do
  ensure (iovc ≠ 0)                                                              -- L26
  match total 0 bufs with
  | none => .ok .einval                                                          -- L43-46
  | some bytes => do
    let data ← gather (List.replicate bytes 0) 0 bytes bufs                      -- L49-62
    .ok (.write data)                                                            -- L64

/-! ## Proofs -/

theorem total_spec (bs : List (List Nat)) : ∀ n, n ≤ 2 ^ 63 - 1 → (∀ b ∈ bs, b.length < 2 ^ 64) →
    total n bs = if n + bs.flatten.length ≤ 2 ^ 63 - 1 then some (n + bs.flatten.length) else none := by
  induction bs with
  | nil => intro n h _; simp [total]; omega
  | cons b bs ih =>
    intro n h hb
    have e : (2 ^ 63 - 1 + 2 ^ 64 - n) % 2 ^ 64 = 2 ^ 63 - 1 - n := by
      rw [show 2 ^ 63 - 1 + 2 ^ 64 - n = 2 ^ 63 - 1 - n + 2 ^ 64 by omega, Nat.add_mod_right, Nat.mod_eq_of_lt (by omega)]
    rw [total, e]
    simp only [List.flatten_cons, List.length_append]
    split
    · rw [if_neg (by omega)]
    · rw [Nat.mod_eq_of_lt (by omega), ih (n + b.length) (by omega) (fun c hc => hb c (by simp [hc])), Nat.add_assoc]

theorem gather_spec (bs : List (List Nat)) : ∀ (pre suf : List Nat), suf.length = bs.flatten.length →
    gather (pre ++ suf) pre.length suf.length bs = .ok (pre ++ bs.flatten) := by
  induction bs with
  | nil =>
    intro pre suf h
    have : suf = [] := List.length_eq_zero_iff.1 (by simpa using h)
    subst this
    rfl
  | cons b bs ih =>
    intro pre suf h
    simp only [List.flatten_cons, List.length_append] at h
    have hm : min b.length suf.length = b.length := by omega
    rw [gather]
    simp only [hm, List.length_append]
    rw [if_neg (by omega), List.take_left, List.take_length]
    have hd : (pre ++ suf).drop (pre.length + b.length) = suf.drop b.length := by
      rw [← List.drop_drop, List.drop_left]
    rw [hd]
    split
    · rename_i h0
      have h1 : bs.flatten = [] := List.length_eq_zero_iff.1 (by omega)
      have h2 : suf.drop b.length = [] := List.length_eq_zero_iff.1 (by simp; omega)
      rw [h2, List.flatten_cons, h1]
      simp
    · have := ih (pre ++ b) (suf.drop b.length) (by rw [List.length_drop]; omega)
      simp only [List.length_append, List.length_drop] at this
      rw [this]
      simp

/-- **C114.** For a positive number of buffers of any sizes `writev` writes their data, in order and in one
    piece, and refuses more than SSIZE_MAX bytes.  Missing: `writev_violated`, `writev_negative_violated`. -/
theorem writev_partial (bufs : List (List Nat)) (h : bufs ≠ []) (hb : ∀ b ∈ bufs, b.length < 2 ^ 64) :
    ∃ o, writev bufs.length bufs = .ok o ∧ Spec bufs.length bufs o := by
  have hpos : 0 < bufs.length := List.length_pos_iff.2 h
  unfold writev
  rw [show (decide ((bufs.length : Int) ≠ 0)) = true by simpa using h, ensure_true, Res.ok_bind,
    total_spec bufs 0 (by decide) hb, Nat.zero_add]
  by_cases hl : bufs.flatten.length ≤ 2 ^ 63 - 1
  · rw [if_pos hl]
    have hg := gather_spec bufs [] (List.replicate bufs.flatten.length 0) (by simp)
    simp only [List.nil_append, List.length_nil, List.length_replicate] at hg
    dsimp only
    rw [hg, Res.ok_bind]
    refine ⟨_, rfl, fun h0 => ?_, fun _ h1 => ?_, fun _ _ => rfl⟩ <;> omega
  · rw [if_neg hl]
    refine ⟨_, rfl, fun _ => rfl, fun _ _ => rfl, fun _ h1 => ?_⟩
    omega

/-- **C114 is violated by the code**: without buffers `writev` ends the process instead of returning EINVAL. -/
theorem writev_violated : writev 0 [] = .panic := by decide

/-- **C114 is violated by the code**: a negative number of buffers is not refused; nothing is written. -/
theorem writev_negative_violated : writev (-1) [] = .ok (.write []) ∧ ¬ Spec (-1) [] (.write []) :=
  ⟨by decide, fun h => by have := h.1 (by decide); simp at this⟩

example : writev 3 [[1, 2], [], [3]] = .ok (.write [1, 2, 3]) := by decide

end Mlibc.Writev
