import Verif.Math.Round

/-
options/ansi/musl-generic-math: fmod, remquo, remainder and their variants for float.
-/
namespace Mlibc.Math

/-! ## The model -/

/-- What a function returns: a NaN, or the number with these bits. fmod.c L17-L18, L66-L67 -/
inductive Out
  | nan
  | bits (u : Nat)
  deriving DecidableEq, Repr

/-- The normalization of subnormal numbers, fmod.c L26: `for (i = uxi<<12; i>>63 == 0; ex--, i <<= 1);`. -/
def normLoop (f : Fmt) : Nat → Nat → Int → Option Int
  | 0, _, _ => none
  | n + 1, i, e => if i >>> (f.width - 1) = 0 then normLoop f n ((i <<< 1) % 2 ^ f.width) (e - 1) else some e

/-- fmod.c L25-L31, remquo.c L22-L28: the significand and its exponent. -/
def normalize (f : Fmt) (u : Nat) : Option (Nat × Int) :=
  if ex f u = 0 then
    (normLoop f f.width ((u <<< (f.eb + 1)) % 2 ^ f.width) 0).map fun e => ((u <<< (-e + 1).toNat) % 2 ^ f.width, e)
  else some ((u &&& ((2 ^ f.width - 1) >>> (f.eb + 1))) ||| (1 <<< f.mb), ex f u)

/-- Subtraction of words. fmod.c L42, L49 -/
def wsub (f : Fmt) (a b : Nat) : Nat := (a + 2 ^ f.width - b) % 2 ^ f.width

/-- fmod.c L41-L49, for `d` steps; `none` if it returns zero. -/
def modLoop (f : Fmt) (my : Nat) : Nat → Nat → Option Nat
  | 0, mx => some mx
  | d + 1, mx =>
    let i := wsub f mx my                                  -- L42
    if i >>> (f.width - 1) = 0 then                        -- L43
      if i = 0 then none else modLoop f my d ((i <<< 1) % 2 ^ f.width)
    else modLoop f my d ((mx <<< 1) % 2 ^ f.width)         -- L48

/-- fmod.c L56, remquo.c L62: `for (; uxi>>52 == 0; uxi <<= 1, ex--);`. -/
def upLoop (f : Fmt) : Nat → Nat → Int → Option (Nat × Int)
  | 0, _, _ => none
  | n + 1, m, e => if m >>> f.mb = 0 then upLoop f n ((m <<< 1) % 2 ^ f.width) (e - 1) else some (m, e)

/-- fmod.c L59-L64, remquo.c L65-L70. -/
def scale (f : Fmt) (m : Nat) (e : Int) : Nat :=
  if 0 < e then (m - 1 <<< f.mb) ||| (e.toNat <<< f.mb) else m >>> (-e + 1).toNat

/-- fmod.c L4-L68, fmodf.c L4-L65. `none`: a loop did not end. The product `0*x` is a zero with the sign of `x`. -/
def fmod (f : Fmt) (x y : Nat) : Option Out :=
  let zero := Out.bits (pack f (sgn f x) 0 0)
  if (y <<< 1) % 2 ^ f.width = 0 ∨ (ex f y = f.emax ∧ man f y ≠ 0) ∨ ex f x = f.emax then some .nan    -- L16
  else if (x <<< 1) % 2 ^ f.width ≤ (y <<< 1) % 2 ^ f.width then                                       -- L18
    if (x <<< 1) % 2 ^ f.width = (y <<< 1) % 2 ^ f.width then some zero else some (.bits x)
  else
    match normalize f x, normalize f y with                                                            -- L25-L38
    | some (mx, ex), some (my, ey) =>
      match modLoop f my (ex - ey).toNat mx with                                                       -- L41-L49
      | none => some zero                                                                              -- L45
      | some mx =>
        let i := wsub f mx my                                                                          -- L50
        if i = 0 then some zero                                                                        -- L51-L53
        else
          let mx := if i >>> (f.width - 1) = 0 then i else mx                                          -- L54
          match upLoop f f.width mx ey with                                                            -- L56
          | some (m, e) => some (.bits (scale f m e ||| (sgn f x <<< (f.width - 1))))                  -- L59-L67
          | none => none
    | _, _ => none

/-- remquo.c L45-L53, for `d` steps: the significand and `q`, a word of 32 bits. -/
def quoLoop (f : Fmt) (my : Nat) : Nat → Nat → Nat → Nat × Nat
  | 0, mx, q => (mx, q)
  | d + 1, mx, q =>
    let i := wsub f mx my
    if i >>> (f.width - 1) = 0 then quoLoop f my d ((i <<< 1) % 2 ^ f.width) ((q + 1) <<< 1 % 2 ^ 32)
    else quoLoop f my d ((mx <<< 1) % 2 ^ f.width) (q <<< 1 % 2 ^ 32)

/-- remquo.c L60: -60; remquof.c L60: -30. -/
def zeroEx (f : Fmt) : Int := if f.mb = 52 then -60 else -30

/-- `2*x` of remquo.c L75 for a positive number. It does not overflow unless `y` is infinite, then it is infinite or (in other rounding modes) less. -/
def twice (f : Fmt) (a : Nat) : Nat := min (2 * a) (2 ^ (f.mb + f.emax - 1))

/-- remquo.c L63-L81, remquof.c L63-L81: what is returned, and `*quo`. -/
def remEnd (f : Fmt) (mode : Mode) (x y : Nat) (m : Nat) (e ey : Int) (q : Nat) : Nat × Int :=
  let r : Num := dec f (scale f m e)                                                     -- L65-L72
  let d : Num := ⟨false, units f y⟩                                                      -- L73-L74
  let next : Bool := decide (e = ey ∨ (e + 1 = ey ∧ (d.mag < twice f r.mag ∨ (twice f r.mag = d.mag ∧ q % 2 = 1))))    -- L75
  let r' := if next then fsub f mode r d else r                                          -- L76
  let q := (if next then (q + 1) % 2 ^ 32 else q) &&& 0x7fffffff                         -- L77-L79
  (enc f (if sgn f x = 1 then r'.flip else r'), if sgn f x ^^^ sgn f y = 0 then (q : Int) else -q)

/-- remquo.c L4-L82, remquof.c L4-L82: what is returned, and `*quo`. remainder.c L5-L9 returns the first. -/
def remquo (f : Fmt) (mode : Mode) (x y : Nat) : Option (Out × Int) :=
  if (y <<< 1) % 2 ^ f.width = 0 ∨ (ex f y = f.emax ∧ man f y ≠ 0) ∨ ex f x = f.emax then some (.nan, 0)    -- L16
  else if (x <<< 1) % 2 ^ f.width = 0 then some (.bits x, 0)                             -- L18
  else
    match normalize f x, normalize f y with                                              -- L22-L35
    | some (mx, ex), some (my, ey) =>
      if ex < ey then                                                                    -- L38
        if ex + 1 = ey then
          let o := remEnd f mode x y mx ex ey 0
          some (.bits o.1, o.2)
        else some (.bits x, 0)
      else
        let (mx, q) := quoLoop f my (ex - ey).toNat mx 0                                 -- L45-L53
        let i := wsub f mx my                                                            -- L54
        let sub : Bool := decide (i >>> (f.width - 1) = 0)
        let mx := if sub then i else mx
        let q := if sub then (q + 1) % 2 ^ 32 else q
        if mx = 0 then                                                                   -- L59
          let o := remEnd f mode x y mx (zeroEx f) ey q
          some (.bits o.1, o.2)
        else
          match upLoop f f.width mx ey with                                              -- L62
          | some (m, e) =>
            let o := remEnd f mode x y m e ey q
            some (.bits o.1, o.2)
          | none => none
    | _, _ => none

/-! ## Proofs -/

section
variable {f : Fmt}

theorem hf_width (f : Fmt) : f.mb + 1 ≤ f.width := by unfold Fmt.width; omega

theorem width_pos (f : Fmt) : 0 < f.width := by unfold Fmt.width; omega

theorem two_pow_width (f : Fmt) : 2 ^ f.width = 2 * 2 ^ (f.width - 1) := by
  have := width_pos f
  rw [← Nat.pow_succ']; congr 1

theorem shl1 {i : Nat} (h : i < 2 ^ (f.width - 1)) : (i <<< 1) % 2 ^ f.width = 2 * i := by
  have := two_pow_width f
  rw [Nat.shiftLeft_eq, Nat.mod_eq_of_lt (by omega)]
  omega

theorem top_zero {i : Nat} (hi : i < 2 ^ f.width) : i >>> (f.width - 1) = 0 ↔ i < 2 ^ (f.width - 1) := by
  rw [Nat.shiftRight_eq_div_pow]
  exact Nat.div_eq_zero_iff_lt (by positivity)

theorem normLoop_spec : ∀ (n i : Nat) (e : Int), 0 < i → i < 2 ^ f.width → 2 ^ f.width ≤ i * 2 ^ n →
    ∃ j : Nat, normLoop f n i e = some (e - j) ∧ 2 ^ (f.width - 1) ≤ i * 2 ^ j ∧ i * 2 ^ j < 2 ^ f.width := by
  intro n
  induction n with
  | zero => intro i e h1 h2 h3; simp at h3; omega
  | succ n ih =>
    intro i e h1 h2 h3
    rw [normLoop]
    by_cases h : i >>> (f.width - 1) = 0
    · rw [if_pos h]
      have h' := (top_zero h2).1 h
      rw [shl1 h']
      have := two_pow_width f
      obtain ⟨j, j1, j2, j3⟩ := ih (2 * i) (e - 1) (by omega) (by omega) (by rw [Nat.pow_succ] at h3; nlinarith)
      have e2 : i * 2 ^ (j + 1) = 2 * i * 2 ^ j := by rw [Nat.pow_succ]; ring
      refine ⟨j + 1, ?_, by rw [e2]; exact j2, by rw [e2]; exact j3⟩
      rw [j1]; congr 1; push_cast; omega
    · rw [if_neg h]
      have h' := (not_congr (top_zero h2)).1 h
      exact ⟨0, by simp, by simp; omega, by simp; exact h2⟩

/-- A significand with all its bits, and the exponent. -/
structure Norm (f : Fmt) (u m : Nat) (e : Int) : Prop where
  lo : 2 ^ f.mb ≤ m
  hi : m < 2 ^ (f.mb + 1)
  ex : 1 ≤ e + f.mb
  eq : units f u * 2 ^ f.mb = m * 2 ^ (e - 1 + f.mb).toNat

theorem man_or {m : Nat} (h : m < 2 ^ f.mb) : m ||| (1 <<< f.mb) = 2 ^ f.mb + m := by
  rw [Nat.shiftLeft_eq, Nat.one_mul]
  have := Nat.two_pow_add_eq_or_of_lt h 1
  rw [Nat.mul_one] at this
  rw [this, Nat.or_comm]

theorem normalize_spec {u : Nat} (hu : u < 2 ^ f.width) (h0 : units f u ≠ 0) : ∃ m e, normalize f u = some (m, e) ∧ Norm f u m e := by
  have hm := man_lt (f := f) u
  unfold normalize
  by_cases he : ex f u = 0
  · rw [if_pos he]
    have hun : units f u = man f u := by rw [units, if_pos he]
    have hw : 2 ^ f.width = 2 ^ f.mb * 2 ^ (f.eb + 1) := by rw [Fmt.width, ← Nat.pow_add]; congr 1
    have hp : 0 < 2 ^ (f.eb + 1) := by positivity
    have hi : (u <<< (f.eb + 1)) % 2 ^ f.width = man f u * 2 ^ (f.eb + 1) := by
      rw [Nat.shiftLeft_eq, hw, Nat.mul_mod_mul_right]; rfl
    rw [hi]
    have hlt : man f u * 2 ^ (f.eb + 1) < 2 ^ f.width := by rw [hw]; exact Nat.mul_lt_mul_of_pos_right hm hp
    have hpos : 0 < man f u * 2 ^ (f.eb + 1) := Nat.mul_pos (by omega) hp
    obtain ⟨j, j1, j2, j3⟩ := normLoop_spec f.width (man f u * 2 ^ (f.eb + 1)) 0 hpos hlt (Nat.le_mul_of_pos_left _ hpos)
    rw [j1]
    have hj3 : man f u * 2 ^ j < 2 ^ f.mb := by
      rw [hw, Nat.mul_right_comm] at j3
      exact Nat.lt_of_mul_lt_mul_right j3
    have hj2 : 2 ^ f.mb ≤ man f u * 2 ^ (j + 1) := by
      have : 2 * 2 ^ (f.width - 1) ≤ 2 * (man f u * 2 ^ (f.eb + 1) * 2 ^ j) := Nat.mul_le_mul_left _ j2
      rw [← two_pow_width, hw] at this
      refine Nat.le_of_mul_le_mul_right (c := 2 ^ (f.eb + 1)) ?_ hp
      rw [Nat.pow_succ]
      calc _ ≤ _ := this
        _ = _ := by ring
    have hjm : j < f.mb := by
      by_contra hc
      have : 2 ^ f.mb ≤ 2 ^ j := Nat.pow_le_pow_right (by omega) (by omega)
      have : 2 ^ j ≤ man f u * 2 ^ j := Nat.le_mul_of_pos_left _ (by omega)
      omega
    have hsh : (-(0 - (j : Int)) + 1).toNat = j + 1 := by omega
    have hmod : u <<< (j + 1) % 2 ^ f.width = man f u * 2 ^ (j + 1) := by
      have hsplit : u = sgn f u * 2 ^ (f.width - 1) + man f u := by
        conv => lhs; rw [← pack_fields (f := f) u, he]
        rw [pack, Nat.add_zero, Nat.mul_assoc, ← Nat.pow_add, Fmt.width]
        congr 3; omega
      rw [Nat.shiftLeft_eq]
      conv => lhs; rw [hsplit]
      have : (sgn f u * 2 ^ (f.width - 1) + man f u) * 2 ^ (j + 1) = man f u * 2 ^ (j + 1) + 2 ^ f.width * (sgn f u * 2 ^ j) := by
        rw [two_pow_width, Nat.pow_succ]; ring
      rw [this, Nat.add_mul_mod_self_left, Nat.mod_eq_of_lt]
      have hb := hf_width f
      calc man f u * 2 ^ (j + 1) = man f u * 2 ^ j * 2 := by rw [Nat.pow_succ]; ring
        _ < 2 ^ f.mb * 2 := Nat.mul_lt_mul_of_pos_right hj3 (by omega)
        _ ≤ 2 ^ f.width := by rw [← Nat.pow_succ]; exact Nat.pow_le_pow_right (by omega) hb
    refine ⟨man f u * 2 ^ (j + 1), -(j : Int), ?_, ⟨hj2, ?_, by omega, ?_⟩⟩
    · simp only [Option.map_some]
      rw [hsh, hmod]; simp
    · rw [Nat.pow_succ, Nat.pow_succ, ← Nat.mul_assoc]
      exact Nat.mul_lt_mul_of_pos_right hj3 (by omega)
    · rw [hun, Nat.mul_assoc, ← Nat.pow_add]
      congr 2; omega
  · rw [if_neg he]
    have hw : f.width - (f.eb + 1) = f.mb := by unfold Fmt.width; omega
    rw [ones_shift (by unfold Fmt.width; omega), hw, Nat.and_two_pow_sub_one_eq_mod]
    refine ⟨_, _, rfl, ?_, ?_, by omega, ?_⟩
    · rw [show u % 2 ^ f.mb = man f u from rfl, man_or hm]; omega
    · rw [show u % 2 ^ f.mb = man f u from rfl, man_or hm, Nat.pow_succ]; omega
    · rw [show u % 2 ^ f.mb = man f u from rfl, man_or hm, units, if_neg he, Nat.mul_assoc, ← Nat.pow_add]
      congr 2; omega

theorem mb_width (hf : f.Ok) : 4 * 2 ^ (f.mb + 1) ≤ 2 ^ (f.width - 1) := by
  have := hf.eb3
  have e : 4 * 2 ^ (f.mb + 1) = 2 ^ (f.mb + 3) := by
    rw [show f.mb + 3 = (f.mb + 1) + 2 by omega, Nat.pow_add _ (f.mb + 1)]; ring
  rw [e]
  exact Nat.pow_le_pow_right (by omega) (by unfold Fmt.width; omega)

theorem wsub_ge (hf : f.Ok) {a b : Nat} (h : b ≤ a) (ha : a < 2 ^ (f.mb + 2)) : wsub f a b = a - b ∧ wsub f a b >>> (f.width - 1) = 0 := by
  have h1 := mb_width hf
  have h2 := two_pow_width f
  have h3 : 2 ^ (f.mb + 2) = 2 * 2 ^ (f.mb + 1) := by rw [← Nat.pow_succ']
  have e : wsub f a b = a - b := by
    rw [wsub, show a + 2 ^ f.width - b = (a - b) + 2 ^ f.width by omega, Nat.add_mod_right, Nat.mod_eq_of_lt (by omega)]
  refine ⟨e, ?_⟩
  rw [e, top_zero (by omega)]; omega

theorem wsub_lt (hf : f.Ok) {a b : Nat} (h : a < b) (hb : b < 2 ^ (f.mb + 1)) : wsub f a b ≠ 0 ∧ wsub f a b >>> (f.width - 1) ≠ 0 := by
  have h1 := mb_width hf
  have h2 := two_pow_width f
  have e : wsub f a b = a + 2 ^ f.width - b := by
    rw [wsub, Nat.mod_eq_of_lt (by omega)]
  refine ⟨by omega, ?_⟩
  rw [e, ne_eq, top_zero (by omega)]; omega

theorem modLoop_spec (hf : f.Ok) {my : Nat} (h0 : 0 < my) (hy : my < 2 ^ (f.mb + 1)) : ∀ (d mx : Nat), 0 < mx → mx < 2 * my →
    match modLoop f my d mx with
    | none => mx * 2 ^ d % my = 0
    | some r => 0 < r ∧ r < 2 * my ∧ r % my = mx * 2 ^ d % my := by
  have h1 := mb_width hf
  have h3 : 2 ^ (f.mb + 2) = 2 * 2 ^ (f.mb + 1) := by rw [← Nat.pow_succ']
  intro d
  induction d with
  | zero => intro mx hp h; simp [modLoop, h, hp]
  | succ d ih =>
    intro mx hp h
    rw [modLoop]
    by_cases hc : my ≤ mx
    · obtain ⟨e1, e2⟩ := wsub_ge hf hc (by omega)
      rw [if_pos e2, e1]
      by_cases hz : mx - my = 0
      · rw [if_pos hz]
        have : mx = my := by omega
        subst this
        exact Nat.mod_eq_zero_of_dvd (Nat.dvd_mul_right _ _)
      · rw [if_neg hz, shl1 (by omega)]
        have := ih (2 * (mx - my)) (by omega) (by omega)
        have e : 2 * (mx - my) * 2 ^ d % my = mx * 2 ^ (d + 1) % my := by
          have : mx * 2 ^ (d + 1) = 2 * (mx - my) * 2 ^ d + my * 2 ^ (d + 1) := by
            obtain ⟨k, rfl⟩ := Nat.exists_eq_add_of_le hc
            rw [Nat.add_sub_cancel_left, Nat.pow_succ]; ring
          rw [this, Nat.add_mul_mod_self_left]
        rw [e] at this
        exact this
    · obtain ⟨e1, e2⟩ := wsub_lt hf (a := mx) (b := my) (by omega) hy
      rw [if_neg e2, shl1 (by omega)]
      have := ih (2 * mx) (by omega) (by omega)
      have e : 2 * mx * 2 ^ d = mx * 2 ^ (d + 1) := by rw [Nat.pow_succ]; ring
      rw [e] at this
      exact this

theorem upLoop_spec (hf : f.Ok) : ∀ (n m : Nat) (e : Int), 0 < m → m < 2 ^ (f.mb + 1) → 2 ^ (f.mb + 1) ≤ m * 2 ^ n →
    ∃ j : Nat, upLoop f n m e = some (m * 2 ^ j, e - j) ∧ 2 ^ f.mb ≤ m * 2 ^ j ∧ m * 2 ^ j < 2 ^ (f.mb + 1) := by
  have h1 := mb_width hf
  have h3 : 2 ^ (f.mb + 1) = 2 * 2 ^ f.mb := by rw [← Nat.pow_succ']
  intro n
  induction n with
  | zero => intro m e a b c; simp at c; omega
  | succ n ih =>
    intro m e a b c
    rw [upLoop]
    by_cases h : m >>> f.mb = 0
    · rw [if_pos h]
      rw [Nat.shiftRight_eq_div_pow, Nat.div_eq_zero_iff_lt (by positivity)] at h
      rw [shl1 (by omega)]
      have e3 : m * 2 ^ (n + 1) = 2 * m * 2 ^ n := by rw [Nat.pow_succ]; ring
      obtain ⟨j, j1, j2, j3⟩ := ih (2 * m) (e - 1) (by omega) (by omega) (by omega)
      have e2 : m * 2 ^ (j + 1) = 2 * m * 2 ^ j := by rw [Nat.pow_succ]; ring
      refine ⟨j + 1, ?_, by rw [e2]; exact j2, by rw [e2]; exact j3⟩
      rw [j1, e2]; congr 2; push_cast; omega
    · rw [if_neg h]
      rw [Nat.shiftRight_eq_div_pow, Nat.div_eq_zero_iff_lt (by positivity)] at h
      exact ⟨0, by simp, by simp; omega, by simp; exact b⟩

/-- The bits of a significand and an exponent, if they are a number. -/
theorem scale_spec (hf : f.Ok) {m k : Nat} {e : Int} (h1 : 2 ^ f.mb ≤ m) (h2 : m < 2 ^ (f.mb + 1)) (h3 : 1 ≤ e + f.mb) (h4 : e < f.emax)
    (hk : k * 2 ^ f.mb = m * 2 ^ (e - 1 + f.mb).toNat) :
    ∃ E M, scale f m e = pack f 0 E M ∧ E < f.emax ∧ M < 2 ^ f.mb ∧ (if E = 0 then M else (2 ^ f.mb + M) * 2 ^ (E - 1)) = k := by
  have hp : 0 < 2 ^ f.mb := by positivity
  have hE := hf.emax_eq
  have h5 : 2 ^ (f.mb + 1) = 2 * 2 ^ f.mb := by rw [← Nat.pow_succ']
  unfold scale
  by_cases h : 0 < e
  · rw [if_pos h]
    have hm : m - 2 ^ f.mb < 2 ^ f.mb := by omega
    refine ⟨e.toNat, m - 2 ^ f.mb, ?_, by omega, hm, ?_⟩
    · rw [Nat.shiftLeft_eq, Nat.shiftLeft_eq, Nat.one_mul, pack, Nat.zero_mul, Nat.zero_add, Nat.or_comm, Nat.mul_comm,
        Nat.two_pow_add_eq_or_of_lt hm]
    · rw [if_neg (by omega), Nat.add_sub_cancel' h1]
      refine Nat.eq_of_mul_eq_mul_right hp ?_
      rw [hk, Nat.mul_assoc, ← Nat.pow_add]
      congr 2; omega
  · rw [if_neg h, Nat.shiftRight_eq_div_pow]
    have hs : f.mb = (e - 1 + f.mb).toNat + (-e + 1).toNat := by omega
    have hkm : k * 2 ^ (-e + 1).toNat = m := by
      refine Nat.eq_of_mul_eq_mul_right (m := 2 ^ (e - 1 + f.mb).toNat) (by positivity) ?_
      rw [← hk, Nat.mul_assoc, ← Nat.pow_add]
      congr 2; omega
    have hd : m / 2 ^ (-e + 1).toNat = k := by
      rw [← hkm, Nat.mul_div_cancel _ (by positivity)]
    rw [hd]
    refine ⟨0, k, by simp [pack], by omega, ?_, by simp⟩
    have h6 : 2 * k ≤ m := by
      rw [← hkm]
      have : 2 ^ 1 ≤ 2 ^ (-e + 1).toNat := Nat.pow_le_pow_right (by omega) (by omega)
      nlinarith
    omega

theorem or_sign {s E M : Nat} (hE : E < 2 ^ f.eb) (hM : M < 2 ^ f.mb) : pack f 0 E M ||| (s <<< (f.width - 1)) = pack f s E M := by
  have h1 : pack f 0 E M < 2 ^ (f.width - 1) := by
    have : (E + 1) * 2 ^ f.mb ≤ 2 ^ f.eb * 2 ^ f.mb := Nat.mul_le_mul_right _ hE
    rw [pack, Fmt.width]
    simp only [Nat.add_sub_cancel]
    rw [Nat.pow_add]
    nlinarith
  rw [Nat.shiftLeft_eq, Nat.or_comm, Nat.mul_comm, ← Nat.two_pow_add_eq_or_of_lt h1, pack, pack, Fmt.width]
  simp only [Nat.add_sub_cancel]
  rw [Nat.pow_add]
  ring

/-- Without the sign. -/
theorem abs_bits {u : Nat} (hu : u < 2 ^ f.width) : (u <<< 1) % 2 ^ f.width = 2 * (ex f u * 2 ^ f.mb + man f u) := by
  have h := pack_fields (f := f) u
  have he := ex_lt (f := f) u
  have hm := man_lt (f := f) u
  have h1 : ex f u * 2 ^ f.mb + man f u < 2 ^ (f.width - 1) := by
    have : (ex f u + 1) * 2 ^ f.mb ≤ 2 ^ f.eb * 2 ^ f.mb := Nat.mul_le_mul_right _ he
    rw [Fmt.width]
    simp only [Nat.add_sub_cancel]
    rw [Nat.pow_add]
    nlinarith
  have hw := two_pow_width f
  have e : u <<< 1 = 2 * (ex f u * 2 ^ f.mb + man f u) + 2 ^ f.width * sgn f u := by
    conv => lhs; rw [← h]
    rw [Nat.shiftLeft_eq, pack, hw, Fmt.width]
    simp only [Nat.add_sub_cancel]
    rw [Nat.pow_add]; ring
  rw [e, Nat.add_mul_mod_self_left, Nat.mod_eq_of_lt (by omega)]

/-- The order of the bits is the order of the magnitudes. -/
theorem units_lt {u v : Nat} (h : ex f u * 2 ^ f.mb + man f u < ex f v * 2 ^ f.mb + man f v) : units f u < units f v := by
  have hmu := man_lt (f := f) u
  have hmv := man_lt (f := f) v
  have hle : ex f u ≤ ex f v := by
    by_contra hc
    have : (ex f v + 1) * 2 ^ f.mb ≤ ex f u * 2 ^ f.mb := Nat.mul_le_mul_right _ (by omega)
    nlinarith
  have hp : 0 < 2 ^ f.mb := by positivity
  by_cases he : ex f u = ex f v
  · rw [he] at h
    unfold units
    rw [he]
    split
    · omega
    · exact Nat.mul_lt_mul_of_pos_right (by omega) (by positivity)
  · have h2 : 2 ^ (f.mb + (ex f v - 1)) ≤ units f v := units_ge_of_ex (by omega)
    refine Nat.lt_of_lt_of_le ?_ h2
    by_cases h0 : ex f u = 0
    · rw [units, if_pos h0]
      exact Nat.lt_of_lt_of_le hmu (Nat.pow_le_pow_right (by omega) (by omega))
    · rw [units, if_neg h0]
      calc _ < 2 ^ (f.mb + 1) * 2 ^ (ex f u - 1) := Nat.mul_lt_mul_of_pos_right (by rw [Nat.pow_succ]; omega) (by positivity)
        _ = 2 ^ (f.mb + 1 + (ex f u - 1)) := by rw [Nat.pow_add _ (f.mb + 1)]
        _ ≤ _ := Nat.pow_le_pow_right (by omega) (by omega)

theorem units_eq {u v : Nat} (h : ex f u * 2 ^ f.mb + man f u = ex f v * 2 ^ f.mb + man f v) : units f u = units f v := by
  have hmu := man_lt (f := f) u
  have hmv := man_lt (f := f) v
  have he : ex f u = ex f v := by
    have h1 : (ex f u * 2 ^ f.mb + man f u) / 2 ^ f.mb = ex f u := by
      rw [Nat.mul_comm, Nat.mul_add_div (by positivity), Nat.div_eq_of_lt hmu, Nat.add_zero]
    have h2 : (ex f v * 2 ^ f.mb + man f v) / 2 ^ f.mb = ex f v := by
      rw [Nat.mul_comm, Nat.mul_add_div (by positivity), Nat.div_eq_of_lt hmv, Nat.add_zero]
    rw [← h1, h, h2]
  unfold units
  rw [he] at h ⊢
  rw [Nat.add_left_cancel h]

theorem abs_zero {u : Nat} (hu : u < 2 ^ f.width) : (u <<< 1) % 2 ^ f.width = 0 ↔ units f u = 0 := by
  rw [Nat.shiftLeft_eq, Nat.pow_one, shl_zero hu, units_zero hu]

/-- The magnitude of a normalized number decides its exponent. -/
theorem norm_le {x y mx my : Nat} {e e' : Int} (hx : Norm f x mx e) (hy : Norm f y my e') (h : units f y < units f x) : e' ≤ e := by
  by_contra hc
  have h1 : units f y * 2 ^ f.mb < units f x * 2 ^ f.mb := Nat.mul_lt_mul_of_pos_right h (by positivity)
  rw [hx.eq, hy.eq] at h1
  have h2 : mx * 2 ^ (e - 1 + f.mb).toNat < 2 ^ (f.mb + 1) * 2 ^ (e - 1 + f.mb).toNat := Nat.mul_lt_mul_of_pos_right hx.hi (by positivity)
  have h3 : 2 ^ f.mb * 2 ^ (e' - 1 + f.mb).toNat ≤ my * 2 ^ (e' - 1 + f.mb).toNat := Nat.mul_le_mul_right _ hy.lo
  have h4 : 2 ^ (f.mb + 1) * 2 ^ (e - 1 + f.mb).toNat ≤ 2 ^ f.mb * 2 ^ (e' - 1 + f.mb).toNat := by
    rw [← Nat.pow_add, ← Nat.pow_add]
    have := hx.ex
    exact Nat.pow_le_pow_right (by omega) (by omega)
  omega

theorem norm_lt_emax {y m : Nat} {e : Int} (h : Norm f y m e) (hy : Finite f y) (h0 : units f y ≠ 0) : e < f.emax := by
  have h1 := h.eq
  have he := ex_lt (f := f) y
  have hE : ex f y < f.emax := by
    have := hy
    unfold Finite Fmt.emax at *
    omega
  by_contra hc
  have h2 : units f y < 2 ^ (f.mb + f.emax - 1) := by
    have hm := man_lt (f := f) y
    unfold units
    split
    · exact Nat.lt_of_lt_of_le hm (Nat.pow_le_pow_right (by omega) (by omega))
    · calc _ < 2 ^ (f.mb + 1) * 2 ^ (ex f y - 1) := Nat.mul_lt_mul_of_pos_right (by rw [Nat.pow_succ]; omega) (by positivity)
        _ = 2 ^ (f.mb + 1 + (ex f y - 1)) := by rw [Nat.pow_add _ (f.mb + 1)]
        _ ≤ _ := Nat.pow_le_pow_right (by omega) (by omega)
  have h3 : units f y * 2 ^ f.mb < 2 ^ (f.mb + f.emax - 1) * 2 ^ f.mb := Nat.mul_lt_mul_of_pos_right h2 (by positivity)
  have h4 : 2 ^ f.mb * 2 ^ (e - 1 + f.mb).toNat ≤ m * 2 ^ (e - 1 + f.mb).toNat := Nat.mul_le_mul_right _ h.lo
  rw [← Nat.pow_add] at h3 h4
  have h5 : 2 ^ (f.mb + f.emax - 1 + f.mb) ≤ 2 ^ (f.mb + (e - 1 + f.mb).toNat) := Nat.pow_le_pow_right (by omega) (by omega)
  omega

/-- What the loops leave is the remainder. -/
theorem rem_norm {x y mx my : Nat} {e e' : Int} (hx : Norm f x mx e) (hy : Norm f y my e') (hle : e' ≤ e) :
    (mx * 2 ^ (e - e').toNat % my) * 2 ^ (e' - 1 + f.mb).toNat = units f x % units f y * 2 ^ f.mb ∧
    mx * 2 ^ (e - e').toNat / my = units f x / units f y := by
  have h1 := hx.ex
  have h2 := hy.ex
  have e1 : units f x * 2 ^ f.mb = mx * 2 ^ (e - e').toNat * 2 ^ (e' - 1 + f.mb).toNat := by
    rw [hx.eq, Nat.mul_assoc, ← Nat.pow_add]; congr 2; omega
  constructor
  · rw [← Nat.mul_mod_mul_right, ← Nat.mul_mod_mul_right, ← e1, ← hy.eq]
  · have hp : 0 < 2 ^ f.mb := by positivity
    have hp2 : 0 < 2 ^ (e' - 1 + f.mb).toNat := by positivity
    rw [← Nat.mul_div_mul_right (units f x) (units f y) hp, e1, hy.eq, Nat.mul_div_mul_right _ _ hp2]

/-- From a remainder that is not zero to its bits. -/
theorem rem_scale (hf : f.Ok) {y my R k : Nat} {e' : Int} (hy : Norm f y my e') (hyf : e' < f.emax) (h0 : 0 < R) (hR : R < my)
    (hk : R * 2 ^ (e' - 1 + f.mb).toNat = k * 2 ^ f.mb) :
    ∃ (m : Nat) (e : Int), upLoop f f.width R e' = some (m, e) ∧ 2 ^ f.mb ≤ m ∧ m < 2 ^ (f.mb + 1) ∧ 1 ≤ e + f.mb ∧ e ≤ e' ∧
      k * 2 ^ f.mb = m * 2 ^ (e - 1 + f.mb).toNat := by
  have hlt : R < 2 ^ (f.mb + 1) := Nat.lt_trans hR hy.hi
  obtain ⟨j, j1, j2, j3⟩ := upLoop_spec hf f.width R e' h0 hlt (by
    have h := mb_width hf
    have := two_pow_width f
    have : 2 ^ f.width ≤ R * 2 ^ f.width := Nat.le_mul_of_pos_left _ h0
    omega)
  have hk0 : 0 < k := by
    by_contra hc
    have : k = 0 := by omega
    rw [this, Nat.zero_mul] at hk
    have : 0 < R * 2 ^ (e' - 1 + f.mb).toNat := Nat.mul_pos h0 (by positivity)
    omega
  have hyx := hy.ex
  have hj : j ≤ (e' - 1 + f.mb).toNat := by
    have h1 : 2 ^ f.mb ≤ R * 2 ^ (e' - 1 + f.mb).toNat := by rw [hk]; exact Nat.le_mul_of_pos_left _ hk0
    have h2 : 2 ^ f.mb * 2 ^ j ≤ R * 2 ^ (e' - 1 + f.mb).toNat * 2 ^ j := Nat.mul_le_mul_right _ h1
    have h3 : R * 2 ^ (e' - 1 + f.mb).toNat * 2 ^ j = R * 2 ^ j * 2 ^ (e' - 1 + f.mb).toNat := by ring
    have h4 : R * 2 ^ j * 2 ^ (e' - 1 + f.mb).toNat < 2 ^ (f.mb + 1) * 2 ^ (e' - 1 + f.mb).toNat := Nat.mul_lt_mul_of_pos_right j3 (by positivity)
    have h5 : 2 ^ f.mb * 2 ^ j < 2 ^ (f.mb + 1) * 2 ^ (e' - 1 + f.mb).toNat := by omega
    rw [← Nat.pow_add, ← Nat.pow_add] at h5
    have := (Nat.pow_lt_pow_iff_right (a := 2) (by omega)).1 h5
    omega
  refine ⟨R * 2 ^ j, e' - j, j1, j2, j3, by omega, by omega, ?_⟩
  rw [← hk, Nat.mul_assoc, ← Nat.pow_add]
  congr 2; omega

/-- fmod: the remainder of the magnitudes, with the sign of the first argument. -/
theorem fmod_spec (hf : f.Ok) {x y : Nat} (hx : x < 2 ^ f.width) (hy : y < 2 ^ f.width) (fx : Finite f x) (fy : Finite f y) (h0 : units f y ≠ 0) :
    ∃ r, fmod f x y = some (.bits r) ∧ r < 2 ^ f.width ∧ Finite f r ∧ sgn f r = sgn f x ∧ units f r = units f x % units f y := by
  have hzero := zero_result hf hx
  have hzu : units f (pack f (sgn f x) 0 0) = 0 := by rw [units_pack (by positivity) (by positivity)]; simp
  have zero_case : units f x % units f y = 0 → ∃ r, some (Out.bits (pack f (sgn f x) 0 0)) = some (.bits r) ∧ r < 2 ^ f.width ∧ Finite f r ∧
      sgn f r = sgn f x ∧ units f r = units f x % units f y := by
    intro h
    exact ⟨_, rfl, hzero.lt, hzero.fin, hzero.sign, by rw [hzu, h]⟩
  unfold fmod
  simp only
  rw [if_neg (by
    rintro (h | h | h)
    · exact h0 ((abs_zero hy).1 h)
    · exact fy h.1
    · exact fx h), abs_bits hx, abs_bits hy]
  by_cases hle : 2 * (ex f x * 2 ^ f.mb + man f x) ≤ 2 * (ex f y * 2 ^ f.mb + man f y)
  · rw [if_pos hle]
    by_cases heq : 2 * (ex f x * 2 ^ f.mb + man f x) = 2 * (ex f y * 2 ^ f.mb + man f y)
    · rw [if_pos heq]
      refine zero_case ?_
      rw [units_eq (by omega : ex f x * 2 ^ f.mb + man f x = ex f y * 2 ^ f.mb + man f y), Nat.mod_self]
    · rw [if_neg heq]
      have := units_lt (f := f) (u := x) (v := y) (by omega)
      exact ⟨x, rfl, hx, fx, rfl, by rw [Nat.mod_eq_of_lt this]⟩
  · rw [if_neg hle]
    have hgt := units_lt (f := f) (u := y) (v := x) (by omega)
    obtain ⟨mx, e, n1, nx⟩ := normalize_spec hx (by omega)
    obtain ⟨my, e', n2, ny⟩ := normalize_spec hy h0
    have hee := norm_le nx ny hgt
    have hmax := norm_lt_emax ny fy h0
    have hp : 0 < my := Nat.lt_of_lt_of_le (by positivity) ny.lo
    have hmx : mx < 2 * my := by
      have := nx.hi
      have := ny.lo
      rw [Nat.pow_succ] at *
      omega
    have hmx0 : 0 < mx := Nat.lt_of_lt_of_le (by positivity) nx.lo
    have h3 : 2 ^ (f.mb + 2) = 2 * 2 ^ (f.mb + 1) := by rw [← Nat.pow_succ']
    have hyhi := ny.hi
    obtain ⟨hrem, _⟩ := rem_norm nx ny hee
    rw [n1, n2]
    simp only
    have hl := modLoop_spec hf hp ny.hi (e - e').toNat mx hmx0 hmx
    generalize hM : modLoop f my (e - e').toNat mx = M at hl ⊢
    have hz0 : mx * 2 ^ (e - e').toNat % my = 0 → units f x % units f y = 0 := by
      intro h
      rw [h, Nat.zero_mul] at hrem
      rcases Nat.mul_eq_zero.1 hrem.symm with h' | h'
      · exact h'
      · have : 0 < 2 ^ f.mb := by positivity
        omega
    cases M with
    | none => exact zero_case (hz0 hl)
    | some r =>
      obtain ⟨l0, l1, l2⟩ := hl
      simp only
      -- the remainder itself
      have hR : (wsub f r my = 0 → r % my = 0) ∧ (wsub f r my ≠ 0 → (if wsub f r my >>> (f.width - 1) = 0 then wsub f r my else r) = r % my ∧ 0 < r % my) := by
        by_cases hc : my ≤ r
        · obtain ⟨a1, a2⟩ := wsub_ge hf hc (by omega)
          have hm : r % my = r - my := by
            rw [Nat.mod_eq_sub_mod hc, Nat.mod_eq_of_lt (by omega)]
          rw [if_pos a2, a1, hm]
          exact ⟨fun h => h, fun h => ⟨rfl, by omega⟩⟩
        · obtain ⟨a1, a2⟩ := wsub_lt hf (a := r) (b := my) (by omega) ny.hi
          rw [if_neg a2, Nat.mod_eq_of_lt (by omega)]
          exact ⟨fun h => absurd h a1, fun _ => ⟨rfl, l0⟩⟩
      by_cases hi : wsub f r my = 0
      · rw [if_pos hi]
        exact zero_case (hz0 (l2 ▸ hR.1 hi))
      · rw [if_neg hi]
        obtain ⟨hr1, hr2⟩ := hR.2 hi
        · rw [hr1, l2]
          rw [l2] at hr2
          obtain ⟨m, e2, u1, u2, u3, u4, u5, u6⟩ := rem_scale hf ny hmax hr2 (Nat.mod_lt _ hp) hrem
          rw [u1]
          obtain ⟨E, M, s1, s2, s3, s4⟩ := scale_spec hf u2 u3 u4 (by omega) u6
          have hE : E < 2 ^ f.eb := Nat.lt_trans s2 (emax_lt f)
          simp only
          rw [s1, or_sign hE s3]
          refine ⟨_, rfl, pack_lt (sgn_lt hx) hE s3, ?_, sgn_pack hE s3, ?_⟩
          · rw [Finite, ex_pack hE s3]; omega
          · rw [units_pack hE s3, s4]

/-- The other cases of fmod: an infinite divisor leaves the number alone; a divisor that is zero or a NaN, and a number that is not finite, give a NaN. -/
theorem fmod_special (hf : f.Ok) {x y : Nat} (hx : x < 2 ^ f.width) (hy : y < 2 ^ f.width) :
    (Finite f x → IsInf f y → fmod f x y = some (.bits x)) ∧
    (¬Finite f x ∨ IsNan f y ∨ (Finite f y ∧ units f y = 0) → fmod f x y = some .nan) := by
  have hE := hf.emax_eq
  constructor
  · intro fx iy
    have hlt : ex f x < f.emax := by
      have := ex_lt (f := f) x
      unfold Finite Fmt.emax at *
      omega
    have hm := man_lt (f := f) x
    have hu : units f y ≠ 0 := by
      have : 2 ^ (f.mb + 0) ≤ units f y := units_ge_of_ex (by rw [iy.1]; omega)
      have : 0 < 2 ^ (f.mb + 0) := by positivity
      omega
    have hab : ex f x * 2 ^ f.mb + man f x < ex f y * 2 ^ f.mb + man f y := by
      rw [iy.1, iy.2]
      have : (ex f x + 1) * 2 ^ f.mb ≤ f.emax * 2 ^ f.mb := Nat.mul_le_mul_right _ hlt
      nlinarith
    unfold fmod
    simp only
    rw [if_neg (by
      rintro (h | h | h)
      · exact hu ((abs_zero hy).1 h)
      · exact h.2 iy.2
      · exact fx h), abs_bits hx, abs_bits hy, if_pos (by omega), if_neg (by omega)]
  · intro h
    unfold fmod
    simp only
    rw [if_pos]
    rcases h with h | h | h
    · right; right
      unfold Finite at h
      exact Classical.not_not.1 h
    · exact Or.inr (Or.inl h)
    · exact Or.inl ((abs_zero hy).2 h.2)

/-! ### remquo -/

/-- The sign of the quotient. -/
def quoSign (f : Fmt) (x y : Nat) : Int := if sgn f x = sgn f y then 1 else -1

/-- What remquo and remainder are to return: `r = x - n y` exactly, where `n` is the integer nearest to `x / y`, the even one of two;
a zero has the sign of `x`. `quo` has the sign of `n` and its magnitude is that of `n` modulo 2^31. -/
def Remainder (f : Fmt) (x y r : Nat) (quo : Int) : Prop :=
  r < 2 ^ f.width ∧ Finite f r ∧ ∃ n : Nat,
    val f r = val f x - quoSign f x y * n * val f y ∧
    2 * |val f r| ≤ |val f y| ∧ (2 * |val f r| = |val f y| → n % 2 = 0) ∧
    quo = quoSign f x y * (n % 2 ^ 31 : Nat) ∧
    (val f r = 0 → sgn f r = sgn f x)

theorem quoLoop_spec (hf : f.Ok) {my : Nat} (h0 : 0 < my) (hy : my < 2 ^ (f.mb + 1)) : ∀ (d mx q Q : Nat), q = Q % 2 ^ 32 → mx < 2 * my →
    ∃ r q' Q', quoLoop f my d mx q = (r, q') ∧ q' = Q' % 2 ^ 32 ∧ r < 2 * my ∧ Q' * my + r = (Q * my + mx) * 2 ^ d := by
  have h1 := mb_width hf
  have h3 : 2 ^ (f.mb + 2) = 2 * 2 ^ (f.mb + 1) := by rw [← Nat.pow_succ']
  intro d
  induction d with
  | zero => intro mx q Q hq h; exact ⟨mx, q, Q, rfl, hq, h, by simp⟩
  | succ d ih =>
    intro mx q Q hq h
    rw [quoLoop]
    by_cases hc : my ≤ mx
    · obtain ⟨e1, e2⟩ := wsub_ge hf hc (by omega)
      simp only [e2, if_true]
      rw [e1, shl1 (by omega)]
      obtain ⟨r, q', Q', i1, i2, i3, i4⟩ := ih (2 * (mx - my)) ((q + 1) <<< 1 % 2 ^ 32) (2 * (Q + 1)) (by rw [Nat.shiftLeft_eq]; omega) (by omega)
      refine ⟨r, q', Q', i1, i2, i3, ?_⟩
      rw [i4]
      obtain ⟨k, rfl⟩ := Nat.exists_eq_add_of_le hc
      rw [Nat.add_sub_cancel_left, Nat.pow_succ]; ring
    · obtain ⟨e1, e2⟩ := wsub_lt hf (a := mx) (b := my) (by omega) hy
      simp only [e2, if_false]
      rw [shl1 (by omega)]
      obtain ⟨r, q', Q', i1, i2, i3, i4⟩ := ih (2 * mx) (q <<< 1 % 2 ^ 32) (2 * Q) (by rw [Nat.shiftLeft_eq]; omega) (by omega)
      refine ⟨r, q', Q', i1, i2, i3, ?_⟩
      rw [i4, Nat.pow_succ]; ring

theorem finite_units_lt (hf : f.Ok) {u : Nat} (h : Finite f u) : units f u < 2 ^ (f.mb + 2 * f.bias) := by
  have hE := hf.emax_eq
  have hB := hf.bias_big
  have he := ex_lt (f := f) u
  have hlt : ex f u < f.emax := by unfold Finite Fmt.emax at *; omega
  exact units_lt_of_ex hf (by omega) (by omega)

theorem units_dvd {u v : Nat} (h : units f u ≤ units f v) : ∃ k, 2 ^ k ∣ units f u ∧ 2 ^ k ∣ units f v ∧ units f u ≤ 2 ^ (f.mb + 1 + k) := by
  have hm := man_lt (f := f) u
  by_cases h0 : ex f u = 0
  · refine ⟨0, by simp, by simp, ?_⟩
    rw [units, if_pos h0, Nat.add_zero, Nat.pow_succ]; omega
  · have hle : ex f u ≤ ex f v := by
      by_contra hc
      have hp : 0 < 2 ^ f.mb := by positivity
      have hmv := man_lt (f := f) v
      have : (ex f v + 1) * 2 ^ f.mb ≤ ex f u * 2 ^ f.mb := Nat.mul_le_mul_right _ (by omega)
      have := units_lt (f := f) (u := v) (v := u) (by nlinarith)
      omega
    have d1 : units f u = (2 ^ f.mb + man f u) * 2 ^ (ex f u - 1) := by rw [units, if_neg h0]
    have d2 : units f v = (2 ^ f.mb + man f v) * 2 ^ (ex f v - 1) := by rw [units, if_neg (by omega)]
    refine ⟨ex f u - 1, by rw [d1]; exact Nat.dvd_mul_left _ _, ?_, ?_⟩
    · rw [d2]; exact Nat.dvd_trans (Nat.pow_dvd_pow _ (by omega)) (Nat.dvd_mul_left _ _)
    · rw [d1, Nat.pow_add _ (f.mb + 1)]
      exact Nat.mul_le_mul_right _ (by rw [Nat.pow_succ]; omega)

theorem enc_any (hf : f.Ok) {a : Num} {R : Nat} (ha : a.mag = R) (hr : Rep f R) (hl : R < 2 ^ (f.mb + 2 * f.bias)) :
    enc f a < 2 ^ f.width ∧ Finite f (enc f a) ∧ val f (enc f a) = a.val ∧ sgn f (enc f a) = if a.neg then 1 else 0 := by
  subst ha
  obtain ⟨h1, h2, h3⟩ := enc_fields hf (a := a) hr hl
  refine ⟨h1, h2, by rw [← dec_val, h3], ?_⟩
  have := sgn_lt h1
  have h4 : decide (sgn f (enc f a) = 1) = a.neg := congrArg Num.neg h3
  cases hn : a.neg <;> rw [hn] at h4 <;> simp at h4 ⊢ <;> omega

theorem val_sign {x : Nat} : val f x = (if sgn f x = 1 then -1 else 1) * (units f x : Int) := by
  unfold val; split <;> ring

theorem abs_val {x : Nat} : |val f x| = units f x := by
  unfold val
  split
  · rw [abs_neg]; exact abs_of_nonneg (by omega)
  · exact abs_of_nonneg (by omega)

theorem quo_mul {x y : Nat} (hx : x < 2 ^ f.width) (hy : y < 2 ^ f.width) (n : Nat) :
    quoSign f x y * n * val f y = (if sgn f x = 1 then -1 else 1) * ((n * units f y : Nat) : Int) := by
  have h1 := sgn_lt hx
  have h2 := sgn_lt hy
  rw [val_sign, quoSign]
  push_cast
  by_cases a : sgn f x = 1 <;> by_cases b : sgn f y = 1
  · rw [if_pos (by omega), if_pos a, if_pos b]; ring
  · rw [if_neg (by omega), if_pos a, if_neg b]; ring
  · rw [if_neg (by omega), if_neg a, if_pos b]; ring
  · rw [if_pos (by omega), if_neg a, if_neg b]; ring

theorem remEnd_spec (hf : f.Ok) {mode : Mode} {x y m q N : Nat} {e ey : Int} (hx : x < 2 ^ f.width) (hy : y < 2 ^ f.width)
    (hsl : scale f m e < 2 ^ f.width) (hs0 : sgn f (scale f m e) = 0) (hsf : Finite f (scale f m e))
    (hN : units f x = N * units f y + units f (scale f m e)) (hlt : units f (scale f m e) < units f y)
    (hq : q = N % 2 ^ 32)
    (hnext : (e = ey ∨ (e + 1 = ey ∧ (units f y < twice f (units f (scale f m e)) ∨ (twice f (units f (scale f m e)) = units f y ∧ q % 2 = 1)))) ↔
      (units f y < 2 * units f (scale f m e) ∨ (2 * units f (scale f m e) = units f y ∧ N % 2 = 1))) :
    Remainder f x y (remEnd f mode x y m e ey q).1 (remEnd f mode x y m e ey q).2 := by
  have hsx := sgn_lt hx
  have hsy := sgn_lt hy
  unfold remEnd
  simp only
  generalize hb : scale f m e = b at *
  have hdec : dec f b = ⟨false, units f b⟩ := by rw [dec, hs0]; rfl
  have hrep := units_rep (f := f) b
  have hfl := finite_units_lt hf hsf
  have hxor : (sgn f x ^^^ sgn f y = 0) ↔ sgn f x = sgn f y := by
    have h1 : sgn f x = 0 ∨ sgn f x = 1 := by omega
    have h2 : sgn f y = 0 ∨ sgn f y = 1 := by omega
    rcases h1 with h1 | h1 <;> rcases h2 with h2 | h2 <;> rw [h1, h2] <;> simp
  have hmask : ∀ a : Nat, a &&& 0x7fffffff = a % 2 ^ 31 := fun a => Nat.and_two_pow_sub_one_eq_mod a 31
  have hqs : ∀ a : Nat, (if sgn f x ^^^ sgn f y = 0 then (a : Int) else -a) = quoSign f x y * a := by
    intro a
    unfold quoSign
    by_cases h : sgn f x = sgn f y
    · rw [if_pos (hxor.2 h), if_pos h]; ring
    · rw [if_neg (fun hc => h (hxor.1 hc)), if_neg h]; ring
  rw [hdec]
  simp only
  rw [hmask, hqs]
  by_cases hn : units f y < 2 * units f b ∨ (2 * units f b = units f y ∧ N % 2 = 1)
  · have hd : decide (e = ey ∨ (e + 1 = ey ∧ (units f y < twice f (units f b) ∨ (twice f (units f b) = units f y ∧ q % 2 = 1)))) = true := decide_eq_true (hnext.2 hn)
    rw [hd]
    simp only [if_true]
    have hv : (⟨false, units f b⟩ : Num).val - (⟨false, units f y⟩ : Num).val = -((units f y - units f b : Nat) : Int) := by
      simp [Num.val]; omega
    have hR : Rep f (units f y - units f b) := by
      obtain ⟨k, k1, k2, k3⟩ := units_dvd (f := f) (u := b) (v := y) (by omega)
      exact ⟨k, Nat.dvd_sub k2 k1, by omega⟩
    have hsub : (fsub f mode ⟨false, units f b⟩ ⟨false, units f y⟩).val = -((units f y - units f b : Nat) : Int) := by
      rw [fsub_exact, hv]
      rw [hv, Int.natAbs_neg, Int.natAbs_natCast]; exact hR
    generalize hr' : fsub f mode ⟨false, units f b⟩ ⟨false, units f y⟩ = r' at hsub ⊢
    have hmag : (if sgn f x = 1 then r'.flip else r').mag = units f y - units f b := by
      have h1 : r'.mag = units f y - units f b := by
        unfold Num.val at hsub
        split at hsub <;> omega
      split <;> simp [Num.flip, h1]
    obtain ⟨a1, a2, a3, a4⟩ := enc_any hf hmag hR (by omega)
    have hval : val f (enc f (if sgn f x = 1 then r'.flip else r')) = (if sgn f x = 1 then -1 else 1) * -((units f y - units f b : Nat) : Int) := by
      rw [a3]
      split
      · rw [flip_val, hsub]; ring
      · rw [hsub]; ring
    have habs : |val f (enc f (if sgn f x = 1 then r'.flip else r'))| = ((units f y - units f b : Nat) : Int) := by
      rw [hval]
      split
      · rw [show (-1 : Int) * -((units f y - units f b : Nat) : Int) = ((units f y - units f b : Nat) : Int) by ring]
        exact abs_of_nonneg (by omega)
      · rw [Int.one_mul, abs_neg]
        exact abs_of_nonneg (by omega)
    refine ⟨a1, a2, N + 1, ?_, ?_, ?_, ?_, ?_⟩
    · rw [hval, quo_mul hx hy, val_sign (x := x), hN, Nat.add_mul, Nat.one_mul]
      split <;> omega
    · rw [habs, abs_val]; omega
    · rw [habs, abs_val]
      intro h
      rcases hn with h' | h' <;> omega
    · congr 2; omega
    · intro h
      rw [h] at habs
      simp at habs
      omega
  · have hd : decide (e = ey ∨ (e + 1 = ey ∧ (units f y < twice f (units f b) ∨ (twice f (units f b) = units f y ∧ q % 2 = 1)))) = false :=
      decide_eq_false (fun h => hn (hnext.1 h))
    rw [hd]
    simp only [Bool.false_eq_true, if_false]
    have hmag : (if sgn f x = 1 then (⟨false, units f b⟩ : Num).flip else ⟨false, units f b⟩).mag = units f b := by
      split <;> simp [Num.flip]
    obtain ⟨a1, a2, a3, a4⟩ := enc_any hf hmag hrep hfl
    have hval : val f (enc f (if sgn f x = 1 then (⟨false, units f b⟩ : Num).flip else ⟨false, units f b⟩)) = (if sgn f x = 1 then -1 else 1) * (units f b : Int) := by
      rw [a3]
      split
      · rw [flip_val]; simp [Num.val]
      · simp [Num.val]
    have habs : |val f (enc f (if sgn f x = 1 then (⟨false, units f b⟩ : Num).flip else ⟨false, units f b⟩))| = (units f b : Int) := by
      rw [hval]
      split
      · rw [show (-1 : Int) * (units f b : Int) = -(units f b : Int) by ring, abs_neg]
        exact abs_of_nonneg (by omega)
      · rw [Int.one_mul]
        exact abs_of_nonneg (by omega)
    refine ⟨a1, a2, N, ?_, ?_, ?_, ?_, ?_⟩
    · rw [hval, quo_mul hx hy, val_sign (x := x), hN]
      split <;> omega
    · rw [habs, abs_val]; omega
    · rw [habs, abs_val]
      intro h
      by_contra hc
      exact hn (Or.inr ⟨by omega, by omega⟩)
    · congr 2; omega
    · intro _
      rw [a4]
      by_cases h : sgn f x = 1
      · rw [if_pos h]; simp [Num.flip, h]
      · rw [if_neg h]; simp; omega

/-- The normalized exponents tell how twice the remainder compares with the divisor. -/
theorem next_iff {y my m k q N : Nat} {e ey : Int} (hy : Norm f y my ey) (hmax : ey < f.emax) (h1 : 2 ^ f.mb ≤ m) (h2 : m < 2 ^ (f.mb + 1)) (h3 : 1 ≤ e + f.mb)
    (hle : e ≤ ey) (hk : k * 2 ^ f.mb = m * 2 ^ (e - 1 + f.mb).toNat) (hq : q = N % 2 ^ 32) :
    (e = ey ∨ (e + 1 = ey ∧ (units f y < twice f k ∨ (twice f k = units f y ∧ q % 2 = 1)))) ↔
      (units f y < 2 * k ∨ (2 * k = units f y ∧ N % 2 = 1)) := by
  have hp : 0 < 2 ^ f.mb := by positivity
  have hyx := hy.ex
  have h5 : 2 ^ (f.mb + 1) = 2 * 2 ^ f.mb := by rw [← Nat.pow_succ']
  have hq2 : q % 2 = N % 2 := by omega
  by_cases c1 : e = ey
  · have : units f y < 2 * k := by
      refine Nat.lt_of_mul_lt_mul_right (a := 2 ^ f.mb) ?_
      rw [hy.eq, Nat.mul_assoc, hk, c1, ← Nat.mul_assoc]
      exact Nat.mul_lt_mul_of_pos_right (by have := hy.hi; omega) (by positivity)
    simp [c1, this]
  · by_cases c2 : e + 1 = ey
    · have ht : twice f k = 2 * k := by
        unfold twice
        refine Nat.min_eq_left ?_
        refine Nat.le_of_mul_le_mul_right (c := 2 ^ f.mb) ?_ hp
        rw [Nat.mul_assoc, hk, ← Nat.mul_assoc]
        calc 2 * m * 2 ^ (e - 1 + f.mb).toNat ≤ 2 ^ (f.mb + 2) * 2 ^ (e - 1 + f.mb).toNat :=
              Nat.mul_le_mul_right _ (by rw [show f.mb + 2 = f.mb + 1 + 1 by omega, Nat.pow_succ]; omega)
          _ = 2 ^ (f.mb + 2 + (e - 1 + f.mb).toNat) := by rw [Nat.pow_add _ (f.mb + 2)]
          _ ≤ 2 ^ (f.mb + f.emax - 1 + f.mb) := Nat.pow_le_pow_right (by omega) (by omega)
          _ = _ := by rw [Nat.pow_add _ (f.mb + f.emax - 1)]
      rw [ht, hq2]
      constructor
      · rintro (h | h)
        · exact absurd h c1
        · exact h.2
      · intro h; exact Or.inr ⟨c2, h⟩
    · have : 2 * k < units f y := by
        refine Nat.lt_of_mul_lt_mul_right (a := 2 ^ f.mb) ?_
        rw [Nat.mul_assoc, hk, hy.eq, ← Nat.mul_assoc]
        calc 2 * m * 2 ^ (e - 1 + f.mb).toNat < 2 ^ (f.mb + 2) * 2 ^ (e - 1 + f.mb).toNat :=
              Nat.mul_lt_mul_of_pos_right (by rw [show f.mb + 2 = f.mb + 1 + 1 by omega, Nat.pow_succ]; omega) (by positivity)
          _ = 2 ^ (f.mb + 2 + (e - 1 + f.mb).toNat) := by rw [Nat.pow_add _ (f.mb + 2)]
          _ ≤ 2 ^ (f.mb + (ey - 1 + f.mb).toNat) := Nat.pow_le_pow_right (by omega) (by omega)
          _ = 2 ^ f.mb * 2 ^ (ey - 1 + f.mb).toNat := by rw [Nat.pow_add]
          _ ≤ _ := Nat.mul_le_mul_right _ hy.lo
      constructor
      · rintro (h | h)
        · exact absurd h c1
        · exact absurd h.1 c2
      · rintro (h | h) <;> omega

/-- remquo, and with it remainder, for finite arguments. -/
theorem remquo_spec (hf : f.Ok) (hz : zeroEx f + f.mb < 0) {mode : Mode} {x y : Nat} (hx : x < 2 ^ f.width) (hy : y < 2 ^ f.width)
    (fx : Finite f x) (fy : Finite f y) (h0 : units f y ≠ 0) :
    ∃ r quo, remquo f mode x y = some (.bits r, quo) ∧ Remainder f x y r quo := by
  have hE := hf.emax_eq
  have hB := hf.bias_big
  have self_case : 2 * units f x < units f y → Remainder f x y x 0 := by
    intro h
    refine ⟨hx, fx, 0, by simp, ?_, ?_, by simp, fun _ => rfl⟩
    · rw [abs_val, abs_val]; omega
    · intro _; rfl
  unfold remquo
  rw [if_neg (by
    rintro (h | h | h)
    · exact h0 ((abs_zero hy).1 h)
    · exact fy h.1
    · exact fx h)]
  by_cases hx0 : units f x = 0
  · rw [if_pos ((abs_zero hx).2 hx0)]
    exact ⟨x, 0, rfl, self_case (by omega)⟩
  rw [if_neg (fun h => hx0 ((abs_zero hx).1 h))]
  obtain ⟨mx, e, n1, nx⟩ := normalize_spec hx hx0
  obtain ⟨my, e', n2, ny⟩ := normalize_spec hy h0
  have hmaxx := norm_lt_emax nx fx hx0
  have hmax := norm_lt_emax ny fy h0
  have hp : 0 < my := Nat.lt_of_lt_of_le (by positivity) ny.lo
  have h3 : 2 ^ (f.mb + 2) = 2 * 2 ^ (f.mb + 1) := by rw [← Nat.pow_succ']
  have hyhi := ny.hi
  have hyx := ny.ex
  have fin_of : ∀ E M, E < f.emax → M < 2 ^ f.mb → pack f 0 E M < 2 ^ f.width ∧ sgn f (pack f 0 E M) = 0 ∧ Finite f (pack f 0 E M) ∧
      units f (pack f 0 E M) = if E = 0 then M else (2 ^ f.mb + M) * 2 ^ (E - 1) := by
    intro E M a b
    have hE2 : E < 2 ^ f.eb := Nat.lt_trans a (emax_lt f)
    exact ⟨pack_lt (by omega) hE2 b, sgn_pack hE2 b, by rw [Finite, ex_pack hE2 b]; omega, units_pack hE2 b⟩
  rw [n1, n2]
  simp only
  by_cases hlt : e < e'
  · rw [if_pos hlt]
    by_cases h1 : e + 1 = e'
    · rw [if_pos h1]
      refine ⟨_, _, rfl, ?_⟩
      obtain ⟨E, M, s1, s2, s3, s4⟩ := scale_spec hf nx.lo nx.hi nx.ex hmaxx nx.eq
      obtain ⟨b1, b2, b3, b4⟩ := fin_of E M s2 s3
      rw [s4] at b4
      rw [← s1] at b1 b2 b3 b4
      have hxy : units f x < units f y := by
        by_contra hc
        by_cases heq : units f y = units f x
        · have h6 := nx.eq
          rw [← heq, ny.eq] at h6
          have : mx * 2 ^ (e - 1 + f.mb).toNat < my * 2 ^ (e' - 1 + f.mb).toNat := by
            calc _ < 2 ^ (f.mb + 1) * 2 ^ (e - 1 + f.mb).toNat := Nat.mul_lt_mul_of_pos_right nx.hi (by positivity)
              _ = 2 ^ (f.mb + (e' - 1 + f.mb).toNat) := by rw [← Nat.pow_add]; congr 1; have := nx.ex; omega
              _ = 2 ^ f.mb * 2 ^ (e' - 1 + f.mb).toNat := by rw [Nat.pow_add]
              _ ≤ _ := Nat.mul_le_mul_right _ ny.lo
          omega
        · have := norm_le nx ny (by omega)
          omega
      refine remEnd_spec hf (N := 0) hx hy b1 b2 b3 (by rw [b4]; omega) (by rw [b4]; exact hxy) rfl ?_
      rw [b4]
      exact next_iff ny hmax nx.lo nx.hi nx.ex (by omega) nx.eq rfl
    · rw [if_neg h1]
      refine ⟨x, 0, rfl, self_case ?_⟩
      have hnx := nx.ex
      refine Nat.lt_of_mul_lt_mul_right (a := 2 ^ f.mb) ?_
      rw [Nat.mul_assoc, nx.eq, ny.eq, ← Nat.mul_assoc]
      have := nx.hi
      calc 2 * mx * 2 ^ (e - 1 + f.mb).toNat < 2 ^ (f.mb + 2) * 2 ^ (e - 1 + f.mb).toNat :=
            Nat.mul_lt_mul_of_pos_right (by omega) (by positivity)
        _ = 2 ^ (f.mb + 2 + (e - 1 + f.mb).toNat) := by rw [Nat.pow_add _ (f.mb + 2)]
        _ ≤ 2 ^ (f.mb + (e' - 1 + f.mb).toNat) := Nat.pow_le_pow_right (by omega) (by omega)
        _ = 2 ^ f.mb * 2 ^ (e' - 1 + f.mb).toNat := by rw [Nat.pow_add]
        _ ≤ _ := Nat.mul_le_mul_right _ ny.lo
  · rw [if_neg hlt]
    have hee : e' ≤ e := by omega
    have hmx : mx < 2 * my := by
      have := nx.hi
      have := ny.lo
      rw [Nat.pow_succ] at *
      omega
    obtain ⟨r, q', Q', l1, l2, l3, l4⟩ := quoLoop_spec hf hp ny.hi (e - e').toNat mx 0 0 (by simp) hmx
    rw [Nat.zero_mul, Nat.zero_add] at l4
    rw [l1]
    simp only
    obtain ⟨hrem, hquo⟩ := rem_norm nx ny hee
    -- the last subtraction
    have hlast : ∃ R N, (if decide (wsub f r my >>> (f.width - 1) = 0) = true then wsub f r my else r) = R ∧
        (if decide (wsub f r my >>> (f.width - 1) = 0) = true then (q' + 1) % 2 ^ 32 else q') = N % 2 ^ 32 ∧ R < my ∧ N * my + R = mx * 2 ^ (e - e').toNat := by
      by_cases hc : my ≤ r
      · obtain ⟨a1, a2⟩ := wsub_ge hf hc (by omega)
        rw [if_pos (decide_eq_true a2), if_pos (decide_eq_true a2), a1]
        refine ⟨r - my, Q' + 1, rfl, by omega, by omega, ?_⟩
        rw [← l4, Nat.add_mul, Nat.one_mul]; omega
      · obtain ⟨a1, a2⟩ := wsub_lt hf (a := r) (b := my) (by omega) ny.hi
        rw [if_neg (by simp [a2]), if_neg (by simp [a2])]
        exact ⟨r, Q', rfl, l2, by omega, l4⟩
    obtain ⟨R, N, g1, g2, g3, g4⟩ := hlast
    rw [g1, g2]
    have hRe : mx * 2 ^ (e - e').toNat % my = R := by
      rw [← g4, Nat.mul_comm, Nat.mul_add_mod, Nat.mod_eq_of_lt g3]
    have hNe : units f x / units f y = N := by
      rw [← hquo, ← g4, Nat.mul_comm, Nat.mul_add_div hp, Nat.div_eq_of_lt g3, Nat.add_zero]
    rw [hRe] at hrem
    have hxy : units f x = N * units f y + units f x % units f y := by
      rw [← hNe]; exact (Nat.div_add_mod' _ _).symm
    have hmodlt : units f x % units f y < units f y := Nat.mod_lt _ (by omega)
    by_cases hR0 : R = 0
    · rw [if_pos hR0]
      refine ⟨_, _, rfl, ?_⟩
      have hmod0 : units f x % units f y = 0 := by
        rw [hR0, Nat.zero_mul] at hrem
        rcases Nat.mul_eq_zero.1 hrem.symm with h' | h'
        · exact h'
        · have : 0 < 2 ^ f.mb := by positivity
          omega
      have hsc : scale f R (zeroEx f) = pack f 0 0 0 := by
        unfold scale
        rw [if_neg (by omega), hR0]; simp [pack]
      obtain ⟨b1, b2, b3, b4⟩ := fin_of 0 0 (by omega) (by positivity)
      rw [if_pos rfl] at b4
      rw [← hsc] at b1 b2 b3 b4
      refine remEnd_spec hf (N := N) hx hy b1 b2 b3 (by rw [b4]; omega) (by rw [b4]; omega) rfl ?_
      rw [b4]
      constructor
      · rintro (h | h) <;> omega
      · rintro (h | h) <;> omega
    · rw [if_neg hR0]
      obtain ⟨m, e2, u1, u2, u3, u4, u5, u6⟩ := rem_scale hf ny hmax (by omega) g3 hrem
      rw [u1]
      refine ⟨_, _, rfl, ?_⟩
      obtain ⟨E, M, s1, s2, s3, s4⟩ := scale_spec hf u2 u3 u4 (by omega) u6
      obtain ⟨b1, b2, b3, b4⟩ := fin_of E M s2 s3
      rw [s4] at b4
      rw [← s1] at b1 b2 b3 b4
      refine remEnd_spec hf (N := N) hx hy b1 b2 b3 (by rw [b4]; exact hxy) (by rw [b4]; exact hmodlt) rfl ?_
      rw [b4]
      exact next_iff ny hmax u2 u3 u4 u5 u6 rfl

theorem zeroEx_ok : zeroEx double + double.mb < 0 ∧ zeroEx float + float.mb < 0 := by decide

/-- The other cases of remquo. -/
theorem remquo_special (hf : f.Ok) {mode : Mode} {x y : Nat} (hx : x < 2 ^ f.width) (hy : y < 2 ^ f.width) :
    (Finite f x → IsInf f y → remquo f mode x y = some (.bits x, 0)) ∧
    (¬Finite f x ∨ IsNan f y ∨ (Finite f y ∧ units f y = 0) → remquo f mode x y = some (.nan, 0)) := by
  have hE := hf.emax_eq
  constructor
  · intro fx iy
    have hu : units f y = 2 ^ (f.mb + f.emax - 1) := by
      rw [units, iy.1, iy.2, if_neg (by omega), Nat.add_zero, ← Nat.pow_add]; congr 1; omega
    have hup : 0 < 2 ^ (f.mb + f.emax - 1) := by positivity
    unfold remquo
    rw [if_neg (by
      rintro (h | h | h)
      · have := (abs_zero hy).1 h; omega
      · exact h.2 iy.2
      · exact fx h)]
    by_cases hx0 : units f x = 0
    · rw [if_pos ((abs_zero hx).2 hx0)]
    rw [if_neg (fun h => hx0 ((abs_zero hx).1 h))]
    obtain ⟨mx, e, n1, nx⟩ := normalize_spec hx hx0
    have n2 : ∃ my, normalize f y = some (my, (f.emax : Int)) := by
      unfold normalize
      rw [if_neg (by rw [iy.1]; omega), iy.1]
      exact ⟨_, rfl⟩
    obtain ⟨my, n2⟩ := n2
    have hmaxx := norm_lt_emax nx fx hx0
    rw [n1, n2]
    simp only
    rw [if_pos hmaxx]
    split
    · obtain ⟨E, M, s1, s2, s3, s4⟩ := scale_spec hf nx.lo nx.hi nx.ex hmaxx nx.eq
      have hE2 : E < 2 ^ f.eb := Nat.lt_trans s2 (emax_lt f)
      have hd : dec f (scale f mx e) = ⟨false, units f x⟩ := by
        rw [s1, dec, sgn_pack hE2 s3, units_pack hE2 s3, s4]; rfl
      have hnext : decide (e = (f.emax : Int) ∨ (e + 1 = (f.emax : Int) ∧ (units f y < twice f (units f x) ∨ (twice f (units f x) = units f y ∧ 0 % 2 = 1)))) = false := by
        refine decide_eq_false ?_
        rintro (h | h)
        · omega
        · rcases h.2 with h' | h'
          · unfold twice at h'
            have := Nat.min_le_right (2 * units f x) (2 ^ (f.mb + f.emax - 1))
            omega
          · omega
      unfold remEnd
      simp only
      rw [hd]
      simp only
      rw [hnext]
      simp only [Bool.false_eq_true, if_false]
      have hfin : (if sgn f x = 1 then (⟨false, units f x⟩ : Num).flip else ⟨false, units f x⟩) = dec f x := by
        unfold dec
        split
        · rename_i h; simp [Num.flip, h]
        · rename_i h; simp [h]
      rw [hfin, enc_dec hf hx]
      simp
    · rfl
  · intro h
    unfold remquo
    rw [if_pos]
    rcases h with h | h | h
    · right; right
      unfold Finite at h
      exact Classical.not_not.1 h
    · exact Or.inr (Or.inl h)
    · exact Or.inl ((abs_zero hy).2 h.2)

end

/-! ## Cases that meet the hypotheses -/

/-- 7 and 2: fmod gives 1, remainder -1 with the quotient 4; -5 and 3 in float. -/
example : fmod double 0x401C000000000000 0x4000000000000000 = some (.bits 0x3FF0000000000000) ∧
    remquo double .nearest 0x401C000000000000 0x4000000000000000 = some (.bits 0xBFF0000000000000, 4) ∧
    fmod float 0xC0A00000 0x40400000 = some (.bits 0xC0000000) ∧ remquo float .down 0xC0A00000 0x40400000 = some (.bits 0x3F800000, -2) := by
  refine ⟨by decide +kernel, by decide +kernel, by decide +kernel, by decide +kernel⟩

/-- Subnormal numbers: 7 and 3 units. -/
example : fmod double 7 3 = some (.bits 1) ∧ remquo double .up 8 3 = some (.bits 0x8000000000000001, 3) := by
  refine ⟨by decide +kernel, by decide +kernel⟩

end Mlibc.Math
