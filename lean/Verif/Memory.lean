import Verif.Base
/-
Flat byte memory for the functions in which source and destination may alias.
-/
namespace Mlibc

/-- Byte-addressed memory. `none`: the address belongs to no object the program may access.
Simplification: addresses are natural numbers, so no pointer arithmetic wraps around. -/
abbrev Mem := Nat → Option UInt8

namespace Mem

/-- Read one byte; outside the allocated addresses this is undefined behaviour. -/
def load (m : Mem) (a : Nat) : Res UInt8 :=
  match m a with
  | some b => .ok b
  | none => .ub

/-- Write one byte; outside the allocated addresses this is undefined behaviour. -/
def store (m : Mem) (a : Nat) (b : UInt8) : Res Mem :=
  match m a with
  | some _ => .ok (fun x => if x = a then some b else m x)
  | none => .ub

/-- Read `k` consecutive bytes. -/
def loadN (m : Mem) (a : Nat) : Nat → Res (List UInt8)
  | 0 => .ok []
  | k + 1 => do
    let b ← m.load a
    let bs ← loadN m (a + 1) k
    return b :: bs

/-- Write consecutive bytes. -/
def storeN (m : Mem) (a : Nat) : List UInt8 → Res Mem
  | [] => .ok m
  | b :: bs => do
    let m' ← m.store a b
    storeN m' (a + 1) bs

/-- All of `[a, a+n)` is accessible. -/
def Valid (m : Mem) (a n : Nat) : Prop := ∀ i, i < n → (m (a + i)).isSome

/-- Memory `m` with `[a, a + bs.length)` replaced by `bs`. -/
def patch (m : Mem) (a : Nat) (bs : List UInt8) : Mem :=
  fun x => if a ≤ x ∧ x < a + bs.length then bs[x - a]? else m x

theorem Valid.mono {m : Mem} {a n k : Nat} (h : m.Valid a n) (hk : k ≤ n) : m.Valid a k :=
  fun i hi => h i (by omega)

theorem Valid.shift {m : Mem} {a n k : Nat} (h : m.Valid a n) (hk : k ≤ n) :
    m.Valid (a + k) (n - k) := fun i hi => by
  have := h (k + i) (by omega); rwa [← Nat.add_assoc] at this

theorem loadN_ok {m : Mem} {a n : Nat} (h : m.Valid a n) :
    ∃ bs, m.loadN a n = .ok bs ∧ bs.length = n ∧ ∀ i, i < n → bs[i]? = m (a + i) := by
  induction n generalizing a with
  | zero => exact ⟨[], rfl, rfl, by intro i hi; omega⟩
  | succ n ih =>
    have h0 := h 0 (by omega)
    obtain ⟨b, hb⟩ := Option.isSome_iff_exists.1 h0
    obtain ⟨bs, e, hl, hi⟩ := ih (a := a + 1) (by simpa using h.shift (k := 1) (by omega))
    refine ⟨b :: bs, ?_, by simp [hl], ?_⟩
    · simp [loadN, load, show m a = some b from hb, e]
    · intro i hlt
      cases i with
      | zero => simpa using hb.symm
      | succ i =>
        simp only [List.getElem?_cons_succ]
        rw [hi i (by omega)]; congr 1; omega

theorem store_ok {m : Mem} {a : Nat} {b : UInt8} (h : (m a).isSome) :
    m.store a b = .ok (m.patch a [b]) := by
  obtain ⟨c, hc⟩ := Option.isSome_iff_exists.1 h
  simp only [store, hc]
  congr 1; funext x
  by_cases hx : x = a
  · subst hx; simp [patch]
  · have : ¬ (a ≤ x ∧ x < a + 1) := by omega
    simp [patch, hx, this]

theorem isSome_patch {m : Mem} {a : Nat} {bs : List UInt8} {x : Nat}
    (h : (m x).isSome) : (m.patch a bs x).isSome := by
  unfold patch; split
  · rename_i hx
    rw [List.getElem?_eq_getElem (by omega)]; rfl
  · exact h

theorem Valid.patch {m : Mem} {a n p : Nat} {bs : List UInt8} (h : m.Valid a n) :
    (m.patch p bs).Valid a n := fun i hi => isSome_patch (h i hi)

theorem patch_nil (m : Mem) (a : Nat) : m.patch a [] = m := by
  funext x; unfold Mem.patch; split
  · rename_i h; simp at h; omega
  · rfl

theorem patch_append (m : Mem) (a : Nat) (xs ys : List UInt8) :
    (m.patch a xs).patch (a + xs.length) ys = m.patch a (xs ++ ys) := by
  funext x
  simp only [Mem.patch, List.length_append]
  by_cases h1 : a + xs.length ≤ x ∧ x < a + xs.length + ys.length
  · rw [if_pos h1, if_pos (by omega), List.getElem?_append_right (by omega)]
    congr 1; omega
  · rw [if_neg h1]
    by_cases h2 : a ≤ x ∧ x < a + xs.length
    · rw [if_pos h2, if_pos (by omega), List.getElem?_append_left (by omega)]
    · rw [if_neg h2, if_neg (by omega)]

theorem storeN_ok {m : Mem} {a : Nat} {bs : List UInt8} (h : m.Valid a bs.length) :
    m.storeN a bs = .ok (m.patch a bs) := by
  induction bs generalizing a m with
  | nil => simp [storeN, patch_nil]
  | cons b bs ih =>
    have h0 : (m a).isSome := by simpa using h 0 (by simp)
    simp only [storeN, store_ok h0, Res.ok_bind]
    rw [ih]
    · have := patch_append m a [b] bs
      simpa using this
    · have := (h.shift (k := 1) (by simp)).patch (p := a) (bs := [b])
      simpa using this

end Mem
end Mlibc
