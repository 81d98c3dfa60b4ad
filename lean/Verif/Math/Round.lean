import Verif.Math.Arith

/-
options/ansi/musl-generic-math: trunc, floor, ceil, round, rint, nearbyint, modf, lrint, lround and their variants for float.

The functions have the same text for double and float, with other constants, except floorf and ceilf, which are written differently. Additions are
made in the type itself (FLT_EVAL_METHOD 0). Which exceptions are raised is not modelled.
-/
namespace Mlibc.Math

/-! ## The model -/

/-- The complement of a word: `~m`, trunc.c L17, floorf.c L18. -/
def inv (f : Fmt) (m : Nat) : Nat := 2 ^ f.width - 1 - m

/-- The constant 2 to the power `e - bias`: the 1 of floor.c L28, the 0.5 of round.c L26. -/
def lit (f : Fmt) (e : Nat) : Num := dec f (pack f 0 e 0)

/-- trunc.c L3-L19, truncf.c L3-L19. -/
def trunc (f : Fmt) (u : Nat) : Nat :=
  if f.mb + f.bias ≤ ex f u then u                                   -- L9
  else
    let e := if ex f u < f.bias then 1 else ex f u - f.bias + (f.eb + 1)   -- L6, L11
    let m := (2 ^ f.width - 1) >>> e                                 -- L13
    if u &&& m = 0 then u                                            -- L14
    else u &&& inv f m                                               -- L17

/-- The constant `toint`, 1 / EPSILON: floor.c L8, ceil.c L8, round.c L8, rint.c L10. -/
def toint (f : Fmt) : Num := lit f (f.bias + f.mb)

/-- `x + toint - toint`, or `x - toint + toint` for numbers with a sign: floor.c L19-L22, ceil.c L19-L22, rint.c L21-L24. -/
def near (f : Fmt) (mode : Mode) (u : Nat) : Num :=
  if sgn f u = 1 then fadd f mode (fsub f mode (dec f u) (toint f)) (toint f)
  else fsub f mode (fadd f mode (dec f u) (toint f)) (toint f)

/-- floor.c L10-L31. -/
def floor (f : Fmt) (mode : Mode) (u : Nat) : Nat :=
  if f.bias + f.mb ≤ ex f u ∨ (dec f u).val = 0 then u               -- L16
  else
    let x := dec f u
    let y := fsub f mode (near f mode u) x                           -- L19-L22
    if ex f u ≤ f.bias - 1 then                                      -- L24
      if sgn f u = 1 then pack f 1 f.bias 0 else 0                   -- L26: -1, 0
    else if 0 < y.val then enc f (fsub f mode (fadd f mode x y) (lit f f.bias))   -- L28
    else enc f (fadd f mode x y)                                     -- L30

/-- ceil.c L10-L31. -/
def ceil (f : Fmt) (mode : Mode) (u : Nat) : Nat :=
  if f.bias + f.mb ≤ ex f u ∨ (dec f u).val = 0 then u
  else
    let x := dec f u
    let y := fsub f mode (near f mode u) x
    if ex f u ≤ f.bias - 1 then
      if sgn f u = 1 then pack f 1 0 0 else pack f 0 f.bias 0        -- L26: -0.0, 1
    else if y.val < 0 then enc f (fadd f mode (fadd f mode x y) (lit f f.bias))   -- L28
    else enc f (fadd f mode x y)

/-- floorf.c L3-L27. -/
def floorf (f : Fmt) (u : Nat) : Nat :=
  if f.bias + f.mb ≤ ex f u then u                                   -- L9
  else if f.bias ≤ ex f u then                                       -- L11
    let m := (2 ^ f.mb - 1) >>> (ex f u - f.bias)                    -- L12
    if u &&& m = 0 then u                                            -- L13
    else
      let v := if sgn f u ≠ 0 then (u + m) % 2 ^ f.width else u      -- L16-L17
      v &&& inv f m                                                  -- L18
  else if sgn f u = 0 then 0                                         -- L21
  else if (u * 2) % 2 ^ f.width ≠ 0 then pack f 1 f.bias 0           -- L23
  else u

/-- ceilf.c L3-L27. -/
def ceilf (f : Fmt) (u : Nat) : Nat :=
  if f.bias + f.mb ≤ ex f u then u
  else if f.bias ≤ ex f u then
    let m := (2 ^ f.mb - 1) >>> (ex f u - f.bias)
    if u &&& m = 0 then u
    else
      let v := if sgn f u = 0 then (u + m) % 2 ^ f.width else u      -- L16-L17
      v &&& inv f m
  else if sgn f u ≠ 0 then pack f 1 0 0                              -- L21
  else if (u * 2) % 2 ^ f.width ≠ 0 then pack f 0 f.bias 0           -- L23
  else u

/-- round.c L10-L35, roundf.c L12-L36. The product `0*u.f` of a finite number is a zero of its sign. -/
def round (f : Fmt) (mode : Mode) (u : Nat) : Nat :=
  if f.bias + f.mb ≤ ex f u then u                                   -- L16
  else
    let x : Num := ⟨false, units f u⟩                                -- L18-L19: x = -x
    if ex f u < f.bias - 1 then enc f ⟨decide (sgn f u = 1), 0⟩      -- L20-L24
    else
      let y := fsub f mode (fsub f mode (fadd f mode x (toint f)) (toint f)) x   -- L25
      let y :=
        if (lit f (f.bias - 1)).val < y.val then fsub f mode (fadd f mode y x) (lit f f.bias)           -- L26-L27
        else if y.val ≤ -(lit f (f.bias - 1)).val then fadd f mode (fadd f mode y x) (lit f f.bias)     -- L28-L29
        else fadd f mode y x                                         -- L31
      enc f (if sgn f u = 1 then y.flip else y)                      -- L32-L34

/-- rint.c L12-L28, rintf.c L14-L30; nearbyint.c L6-L20 returns the same. -/
def rint (f : Fmt) (mode : Mode) (u : Nat) : Nat :=
  if f.bias + f.mb ≤ ex f u then u                                   -- L19
  else
    let y := near f mode u                                           -- L21-L24
    if y.val = 0 then pack f (if sgn f u = 1 then 1 else 0) 0 0      -- L25-L26
    else enc f y

/-- modf.c L3-L34, modff.c L3-L34: what is stored through `iptr`, and what is returned. -/
def modf (f : Fmt) (mode : Mode) (u : Nat) : Nat × Nat :=
  let sign := 2 ^ (f.width - 1)
  if f.bias + f.mb ≤ ex f u then                                     -- L10
    if ex f u = f.emax ∧ (u * 2 ^ (f.eb + 1)) % 2 ^ f.width ≠ 0 then (u, u)   -- L12
    else (u, u &&& sign)                                             -- L14
  else if ex f u < f.bias then (u &&& sign, u)                       -- L19-L23
  else
    let mask := (2 ^ f.width - 1) >>> (f.eb + 1) >>> (ex f u - f.bias)   -- L25
    if u &&& mask = 0 then (u, u &&& sign)                           -- L26-L30
    else (u &&& inv f mask, enc f (fsub f mode (dec f u) (dec f (u &&& inv f mask))))   -- L31-L33

/-- The conversion of a floating point number to an integer of `bits` bits, lrint.c L43, lround.c L5: undefined if the number, truncated, is out of range, or is not finite. -/
def toInteger (f : Fmt) (bits : Nat) (u : Nat) : Res Int :=
  if ex f u = f.emax then .ub
  else
    let n := Int.tdiv (dec f u).val (one f)
    if -2 ^ (bits - 1) ≤ n ∧ n < 2 ^ (bits - 1) then .ok n else .ub

/-- lrint.c L41-L44, llrint.c L5-L8 and their float variants. -/
def lrint (f : Fmt) (bits : Nat) (mode : Mode) (u : Nat) : Res Int := toInteger f bits (rint f mode u)
/-- lround.c L3-L6, llround.c L3-L6 and their float variants. -/
def lround (f : Fmt) (bits : Nat) (mode : Mode) (u : Nat) : Res Int := toInteger f bits (round f mode u)

/-! ## The specification -/

/-- `r` is a finite number with the sign of `u`, also if it is zero, and the value `z`. With `bits_ext` these are its bits. -/
structure Result (f : Fmt) (u r : Nat) (z : Int) : Prop where
  lt : r < 2 ^ f.width
  fin : Finite f r
  sign : sgn f r = sgn f u
  value : val f r = z

/-- The integers next to a value, and the one a rounding mode chooses. -/
def Chosen (f : Fmt) (mode : Mode) (z n : Int) : Prop :=
  match mode with
  | .nearest => 2 * |n * one f - z| ≤ one f ∧ (2 * |n * one f - z| = one f → n % 2 = 0)
  | .up => z ≤ n * one f ∧ n * one f < z + one f
  | .down => n * one f ≤ z ∧ z < n * one f + one f
  | .zero => |n * one f| ≤ |z| ∧ |z| < |n * one f| + one f ∧ 0 ≤ n * z

/-! ## Proofs -/

section
variable {f : Fmt} {mode : Mode} {u : Nat}

theorem units_lt_of_ex (hf : f.Ok) {k : Nat} (h : ex f u < k + 1) (hk : 1 ≤ k) : units f u < 2 ^ (f.mb + k) := by
  have hm := man_lt (f := f) u
  unfold units
  split
  · exact Nat.lt_of_lt_of_le hm (Nat.pow_le_pow_right (by omega) (by omega))
  · have h1 : (2 ^ f.mb + man f u) * 2 ^ (ex f u - 1) < 2 ^ (f.mb + 1) * 2 ^ (ex f u - 1) :=
      Nat.mul_lt_mul_of_pos_right (by rw [Nat.pow_succ]; omega) (by positivity)
    rw [← Nat.pow_add] at h1
    exact Nat.lt_of_lt_of_le h1 (Nat.pow_le_pow_right (by omega) (by omega))

theorem units_ge_of_ex {k : Nat} (h : k + 1 ≤ ex f u) : 2 ^ (f.mb + k) ≤ units f u := by
  unfold units
  rw [if_neg (by omega), Nat.pow_add]
  exact Nat.mul_le_mul (by omega) (Nat.pow_le_pow_right (by omega) (by omega))

theorem one_eq (hf : f.Ok) : one f = 2 ^ f.mb * 2 ^ (f.bias - 1) := by
  have := hf.bias_big
  rw [one, ← Nat.pow_add]; congr 1; omega

theorem units_lit (hf : f.Ok) {s e : Nat} (h1 : 1 ≤ e) (h2 : e < 2 ^ f.eb) : units f (pack f s e 0) = 2 ^ (f.mb + (e - 1)) := by
  rw [units_pack h2 (by positivity), if_neg (by omega), Nat.add_zero, Nat.pow_add]

theorem emax_lt (f : Fmt) : f.emax < 2 ^ f.eb := by
  have : 0 < 2 ^ f.eb := by positivity
  unfold Fmt.emax; omega

theorem bias_lt (hf : f.Ok) : f.bias + f.mb < 2 ^ f.eb := by
  have := hf.emax_eq
  have := hf.bias_big
  have := emax_lt f
  omega

theorem lit_val (hf : f.Ok) {e : Nat} (h1 : 1 ≤ e) (h2 : e < 2 ^ f.eb) : lit f e = ⟨false, 2 ^ (f.mb + (e - 1))⟩ := by
  rw [lit, dec, sgn_pack h2 (by positivity), units_lit hf h1 h2]
  rfl

theorem lit_one (hf : f.Ok) : lit f f.bias = ⟨false, one f⟩ := by
  have := hf.bias_big
  have := bias_lt hf
  rw [lit_val hf (by omega) (by omega), one]; congr 2; omega

theorem toint_eq (hf : f.Ok) : toint f = ⟨false, 2 ^ f.mb * one f⟩ := by
  have := hf.bias_big
  have := bias_lt hf
  rw [toint, lit_val hf (by omega) (by omega), one, ← Nat.pow_add]

theorem mag_val_neg {x : Num} (h : x.neg = true) : x.val = -(x.mag : Int) := by simp [Num.val, h]
theorem mag_val_pos {x : Num} (h : x.neg = false) : x.val = (x.mag : Int) := by simp [Num.val, h]

/-- Adding `toint` rounds to an integer. -/
theorem rnd_toint (hf : f.Ok) {m : Nat} {neg : Bool} (h : m < 2 ^ f.mb * one f) :
    rnd f mode neg (m + 2 ^ f.mb * one f) =
      (m / one f + 2 ^ f.mb + if roundsUp mode neg (m / one f) (m % one f) (one f) then 1 else 0) * one f := by
  have hu : ulp f (m + 2 ^ f.mb * one f) = one f := by
    rw [one] at h ⊢
    refine ulp_eq ?_ ?_
    · rw [← Nat.pow_add]; omega
    · rw [Nat.pow_succ, Nat.pow_add]; omega
  have hd : (m + 2 ^ f.mb * one f) / one f = m / one f + 2 ^ f.mb := Nat.add_mul_div_right _ _ (one_pos f)
  have hm : (m + 2 ^ f.mb * one f) % one f = m % one f := Nat.add_mul_mod_self_right _ _ _
  have hp : ∀ q r o, roundsUp mode neg (q + 2 ^ f.mb) r o = roundsUp mode neg q r o := by
    intro q r o
    have he : 2 ^ f.mb = 2 * 2 ^ (f.mb - 1) := by
      have := hf.mb2
      rw [← Nat.pow_succ']; congr 1; omega
    have : (q + 2 ^ f.mb) % 2 = q % 2 := by rw [he]; omega
    cases mode <;> simp [roundsUp, this]
  rw [rnd, hu, hd, hm, hp]

theorem rep_mul_one {n : Nat} (h : n ≤ 2 ^ (f.mb + 1)) : Rep f (n * one f) :=
  ⟨f.bias + f.mb - 1, Nat.dvd_mul_left _ _, by rw [Nat.pow_add]; exact Nat.mul_le_mul_right _ h⟩

/-- The integer that `x + toint - toint` is. -/
def nearN (f : Fmt) (mode : Mode) (neg : Bool) (m : Nat) : Nat := m / one f + if roundsUp mode neg (m / one f) (m % one f) (one f) then 1 else 0

theorem nearN_le {neg : Bool} {m : Nat} (h : m < 2 ^ f.mb * one f) : nearN f mode neg m ≤ 2 ^ f.mb := by
  have : m / one f < 2 ^ f.mb := (Nat.div_lt_iff_lt_mul (one_pos f)).2 h
  unfold nearN
  split <;> omega

theorem two_le (h : f.Ok) : 4 ≤ 2 ^ f.mb := by
  have := Nat.pow_le_pow_right (n := 2) (by omega) h.mb2
  omega

theorem near_pos (hf : f.Ok) {m : Nat} (h : m < 2 ^ f.mb * one f) :
    (fsub f mode (fadd f mode ⟨false, m⟩ (toint f)) (toint f)).val = nearN f mode false m * one f := by
  have hT := toint_eq hf
  have hTp : 0 < 2 ^ f.mb * one f := Nat.mul_pos (by positivity) (one_pos f)
  have hn := nearN_le (mode := mode) (neg := false) h
  have e0 : (⟨false, m⟩ : Num).val + (toint f).val = ((m + 2 ^ f.mb * one f : Nat) : Int) := by
    rw [hT]; simp [Num.val]
  have e1 : (fadd f mode ⟨false, m⟩ (toint f)).val = ((nearN f mode false m + 2 ^ f.mb) * one f : Nat) := by
    have hz : (⟨false, m⟩ : Num).val + (toint f).val ≠ 0 := by rw [e0]; omega
    have hneg := fadd_neg (f := f) (mode := mode) hz
    rw [mag_val_pos, fadd_mag hz, e0]
    · rw [Int.natAbs_natCast]
      have : decide (((m + 2 ^ f.mb * one f : Nat) : Int) < 0) = false := decide_eq_false (by omega)
      rw [this, rnd_toint hf h, nearN]
      congr 2; omega
    · rw [hneg, e0]; exact decide_eq_false (by omega)
  have e2 : (fadd f mode ⟨false, m⟩ (toint f)).val - (toint f).val = ((nearN f mode false m * one f : Nat) : Int) := by
    rw [e1, hT]
    simp only [Num.val, Nat.add_mul]
    push_cast
    simp
  rw [fsub_exact, e2]
  · push_cast; rfl
  · rw [e2, Int.natAbs_natCast]
    exact rep_mul_one (by rw [Nat.pow_succ]; omega)

theorem near_neg (hf : f.Ok) {m : Nat} (h : m < 2 ^ f.mb * one f) :
    (fadd f mode (fsub f mode ⟨true, m⟩ (toint f)) (toint f)).val = -(nearN f mode true m * one f : Int) := by
  have hT := toint_eq hf
  have hTp : 0 < 2 ^ f.mb * one f := Nat.mul_pos (by positivity) (one_pos f)
  have hn := nearN_le (mode := mode) (neg := true) h
  have e0 : (⟨true, m⟩ : Num).val + (toint f).flip.val = -((m + 2 ^ f.mb * one f : Nat) : Int) := by
    rw [hT]; simp [Num.val, Num.flip]; omega
  have e1 : (fsub f mode ⟨true, m⟩ (toint f)).val = -(((nearN f mode true m + 2 ^ f.mb) * one f : Nat) : Int) := by
    have hz : (⟨true, m⟩ : Num).val + (toint f).flip.val ≠ 0 := by rw [e0]; omega
    have hneg := fadd_neg (f := f) (mode := mode) hz
    rw [fsub, mag_val_neg, fadd_mag hz, e0]
    · rw [Int.natAbs_neg, Int.natAbs_natCast]
      have : decide (-((m + 2 ^ f.mb * one f : Nat) : Int) < 0) = true := decide_eq_true (by omega)
      rw [this, rnd_toint hf h, nearN]
      congr 3; omega
    · rw [hneg, e0]; exact decide_eq_true (by omega)
  have e2 : (fsub f mode ⟨true, m⟩ (toint f)).val + (toint f).val = -((nearN f mode true m * one f : Nat) : Int) := by
    rw [e1, hT]
    simp only [Num.val, Nat.add_mul]
    push_cast
    simp
  rw [fadd_exact, e2]
  · push_cast; rfl
  · rw [e2, Int.natAbs_neg, Int.natAbs_natCast]
    exact rep_mul_one (by rw [Nat.pow_succ]; omega)

theorem units_lt_toint (hf : f.Ok) (h : ex f u < f.bias + f.mb) : units f u < 2 ^ f.mb * one f := by
  have h2 := hf.bias_big
  have := units_lt_of_ex (u := u) (k := f.bias + f.mb - 1) hf (by omega) (by omega)
  rw [one, ← Nat.pow_add]
  exact this

theorem near_val (hf : f.Ok) (hu : u < 2 ^ f.width) (h : ex f u < f.bias + f.mb) :
    (near f mode u).val = if sgn f u = 1 then -(nearN f mode true (units f u) * one f : Int) else nearN f mode false (units f u) * one f := by
  have hl := units_lt_toint hf h
  unfold near
  by_cases hs : sgn f u = 1
  · rw [if_pos hs, if_pos hs, dec, hs]
    exact near_neg hf hl
  · rw [if_neg hs, if_neg hs, dec]
    simp only [hs, decide_false]
    exact near_pos hf hl

/-- The bits of a sum with a value that is not zero. -/
theorem enc_val (hf : f.Ok) {a : Num} {z : Int} (ha : a.val = z) (hz : z ≠ 0) (hr : Rep f z.natAbs) (hl : z.natAbs < 2 ^ (f.mb + 2 * f.bias)) :
    enc f a < 2 ^ f.width ∧ Finite f (enc f a) ∧ val f (enc f a) = z ∧ sgn f (enc f a) = if z < 0 then 1 else 0 := by
  have hm : a.mag = z.natAbs := by
    rw [← ha]; unfold Num.val; split <;> omega
  obtain ⟨h1, h2, h3⟩ := enc_fields hf (a := a) (hm ▸ hr) (hm ▸ hl)
  refine ⟨h1, h2, ?_, ?_⟩
  · rw [← dec_val, h3, ha]
  · have hs := sgn_lt h1
    have h4 : decide (sgn f (enc f a) = 1) = a.neg := by
      have := congrArg Num.neg h3
      exact this
    have h5 : a.neg = decide (z < 0) := by
      rw [← ha] at hz ⊢
      unfold Num.val at hz ⊢
      cases hn : a.neg
      · simp [hn] at hz ⊢
      · simp [hn] at hz ⊢; omega
    rw [h5] at h4
    by_cases hz0 : z < 0
    · simp [hz0] at h4 ⊢; exact h4
    · simp [hz0] at h4 ⊢; omega

theorem big_lt (hf : f.Ok) {n : Nat} (h : n < 2 ^ (f.mb + 1)) : n * one f < 2 ^ (f.mb + 2 * f.bias) := by
  have := hf.bias_big
  have h1 : n * one f < 2 ^ (f.mb + 1) * one f := Nat.mul_lt_mul_of_pos_right h (one_pos f)
  rw [one, ← Nat.pow_add] at h1
  rw [one]
  exact Nat.lt_of_lt_of_le h1 (Nat.pow_le_pow_right (by omega) (by omega))

theorem enc_int (hf : f.Ok) {a : Num} {n : Int} (ha : a.val = n * one f) (hn : n ≠ 0) (hl : n.natAbs < 2 ^ (f.mb + 1)) :
    enc f a < 2 ^ f.width ∧ Finite f (enc f a) ∧ val f (enc f a) = n * one f ∧ sgn f (enc f a) = if n < 0 then 1 else 0 := by
  have ho := one_pos f
  have h0 : (n * one f).natAbs = n.natAbs * one f := by rw [Int.natAbs_mul, Int.natAbs_natCast]
  have h1 := enc_val hf ha (Int.mul_ne_zero hn (by omega)) (by rw [h0]; exact rep_mul_one (by omega)) (by rw [h0]; exact big_lt hf hl)
  refine ⟨h1.1, h1.2.1, h1.2.2.1, ?_⟩
  rw [h1.2.2.2]
  have : n * (one f : Int) < 0 ↔ n < 0 := by
    constructor
    · intro h
      by_contra hc
      have : 0 ≤ n * (one f : Int) := Int.mul_nonneg (by omega) (by omega)
      omega
    · intro h
      exact Int.mul_neg_of_neg_of_pos h (by omega)
  simp only [this]

/-- The difference of a number and an integer next to it. -/
theorem rep_diff (hf : f.Ok) {n : Nat} (h1 : f.bias - 1 ≤ ex f u) (h2 : ex f u < f.bias + f.mb)
    (h3 : ((n * one f : Nat) - units f u : Int).natAbs ≤ one f) : Rep f ((n * one f : Nat) - units f u : Int).natAbs := by
  have hB := hf.bias_big
  have hm := hf.mb2
  refine ⟨ex f u - 1, ?_, ?_⟩
  · have d1 : 2 ^ (ex f u - 1) ∣ n * one f := Nat.dvd_trans (Nat.pow_dvd_pow _ (by omega)) (Nat.dvd_mul_left _ _)
    have d2 : 2 ^ (ex f u - 1) ∣ units f u := by
      unfold units; rw [if_neg (by omega)]; exact Nat.dvd_mul_left _ _
    have := Int.dvd_sub (Int.natCast_dvd_natCast.2 d1) (Int.natCast_dvd_natCast.2 d2)
    exact Int.natAbs_dvd_natAbs.2 this
  · refine Nat.le_trans h3 ?_
    rw [one]
    exact Nat.pow_le_pow_right (by omega) (by omega)

theorem nearN_diff {neg : Bool} {m : Nat} : ((nearN f mode neg m * one f : Nat) - m : Int).natAbs ≤ one f ∧
    (nearN f mode neg m = m / one f ∨ (nearN f mode neg m = m / one f + 1 ∧ m % one f ≠ 0)) := by
  have hd := Nat.div_add_mod m (one f)
  have hl := Nat.mod_lt m (one_pos f)
  unfold nearN
  have ho := one_pos f
  by_cases h0 : m % one f = 0
  · rw [h0, roundsUp_zero _ _ _ _ (one_pos f)]
    simp only [Bool.false_eq_true, if_false, Nat.add_zero]
    rw [Nat.mul_comm]
    exact ⟨by omega, Or.inl trivial⟩
  · split
    · rw [Nat.add_mul, Nat.one_mul, Nat.mul_comm]
      exact ⟨by omega, Or.inr ⟨rfl, h0⟩⟩
    · rw [Nat.add_zero, Nat.mul_comm]
      exact ⟨by omega, Or.inl rfl⟩

/-! ### Integers -/

theorem floor_unique {z q o : Int} (ho : 0 < o) (h1 : q * o ≤ z) (h2 : z < q * o + o) : z / o = q := by
  have a1 := (Int.le_ediv_iff_mul_le ho).2 h1
  have a2 : z / o < q + 1 := (Int.ediv_lt_iff_lt_mul ho).2 (by rw [Int.add_mul, Int.one_mul]; exact h2)
  omega

theorem whole_of_ex (hf : f.Ok) (h : f.bias + f.mb ≤ ex f u) : ∃ n, units f u = n * one f := by
  have hB := hf.bias_big
  have d : one f ∣ units f u := by
    unfold units
    rw [if_neg (by omega), one]
    exact Nat.dvd_trans (Nat.pow_dvd_pow _ (by omega)) (Nat.dvd_mul_left _ _)
  obtain ⟨n, hn⟩ := d
  exact ⟨n, by rw [hn, Nat.mul_comm]⟩

theorem val_whole {n : Nat} (h : units f u = n * one f) : ∃ k : Int, val f u = k * one f := by
  unfold val
  rw [h]
  split
  · exact ⟨-n, by push_cast; rw [Int.neg_mul]⟩
  · exact ⟨n, by push_cast; rfl⟩

theorem result_self (hu : u < 2 ^ f.width) (hfin : Finite f u) : Result f u u (val f u) := ⟨hu, hfin, rfl, rfl⟩

theorem ediv_whole {k : Int} (h : val f u = k * one f) : val f u / one f * one f = val f u := by
  have := one_pos f
  rw [h, Int.mul_ediv_cancel _ (by omega)]

theorem tdiv_whole {k : Int} (h : val f u = k * one f) : (val f u).tdiv (one f) * one f = val f u := by
  have := one_pos f
  rw [h, Int.mul_tdiv_cancel _ (by omega)]

theorem neg_ediv_whole {k : Int} (h : val f u = k * one f) : -(-val f u / one f) * one f = val f u := by
  have := one_pos f
  rw [h, ← Int.neg_mul, Int.mul_ediv_cancel _ (by omega), Int.neg_neg]

theorem finite_of_lt (hf : f.Ok) (h : ex f u < f.bias + f.mb) : Finite f u := by
  have := hf.emax_eq
  have := hf.bias_big
  unfold Finite; omega

/-- A number given by its sign and magnitude. -/
theorem result_of {r : Nat} {z : Int} (h1 : r < 2 ^ f.width) (h2 : Finite f r) (h3 : sgn f r = sgn f u)
    (h4 : z = if sgn f u = 1 then -(units f r : Int) else units f r) : Result f u r z :=
  ⟨h1, h2, h3, by rw [val, h3, h4]⟩

theorem zero_result (hf : f.Ok) (hu : u < 2 ^ f.width) : Result f u (pack f (sgn f u) 0 0) 0 := by
  have hp : 0 < 2 ^ f.eb := by positivity
  have hm : 0 < 2 ^ f.mb := by positivity
  have hB := hf.bias_big
  refine result_of (pack_lt (sgn_lt hu) hp hm) ?_ (sgn_pack hp hm) ?_
  · rw [Finite, ex_pack hp hm, hf.emax_eq]; omega
  · rw [units_pack hp hm]; simp

/-- Clearing the bits of the fraction that stand for less than 1. -/
theorem cleared (hf : f.Ok) (hu : u < 2 ^ f.width) (h1 : f.bias ≤ ex f u) (h2 : ex f u < f.bias + f.mb) :
    let k := f.mb - (ex f u - f.bias)
    let r := u / 2 ^ k * 2 ^ k
    Result f u r ((val f u).tdiv (one f) * one f) ∧ units f r = units f u / one f * one f ∧ (u % 2 ^ k = 0 ↔ units f u % one f = 0) := by
  intro k r
  have hB := hf.bias_big
  have hk : k ≤ f.mb := Nat.sub_le _ _
  have hr : r = pack f (sgn f u) (ex f u) (man f u / 2 ^ k * 2 ^ k) := clear_low hk
  have hm := man_lt (f := f) u
  have hm2 := mul_low_lt (k := k) hm
  have he := ex_lt (f := f) u
  have hone : one f = 2 ^ k * 2 ^ (ex f u - 1) := by rw [one, ← Nat.pow_add]; congr 1; omega
  have hunit : units f u = (2 ^ f.mb + man f u) * 2 ^ (ex f u - 1) := by rw [units, if_neg (by omega)]
  have hsp : 2 ^ f.mb = 2 ^ k * 2 ^ (f.mb - k) := pow_split hk
  have hp : 0 < 2 ^ k := by positivity
  have hp2 : 0 < 2 ^ (ex f u - 1) := by positivity
  have hdiv : (2 ^ f.mb + man f u) / 2 ^ k = 2 ^ (f.mb - k) + man f u / 2 ^ k := by
    rw [hsp, Nat.mul_add_div hp]
  have hur : units f r = units f u / one f * one f := by
    rw [hr, units_pack he hm2, if_neg (by omega), hunit, hone, Nat.mul_div_mul_right _ _ hp2, hdiv, hsp]
    ring
  refine ⟨?_, hur, ?_⟩
  · refine result_of ?_ ?_ ?_ ?_
    · rw [hr]; exact pack_lt (sgn_lt hu) he hm2
    · rw [Finite, hr, ex_pack he hm2]
      exact finite_of_lt hf h2
    · rw [hr, sgn_pack he hm2]
    · rw [hur, val]
      split
      · rw [Int.neg_tdiv, Int.neg_mul, ← Int.ofNat_tdiv]; push_cast; rfl
      · rw [← Int.ofNat_tdiv]; push_cast; rfl
  · have hmu : u % 2 ^ k = man f u % 2 ^ k := by
      rw [man, Nat.mod_mod_of_dvd]
      exact Nat.pow_dvd_pow _ hk
    rw [hmu, hunit, hone, Nat.mul_mod_mul_right, hsp, Nat.mul_add_mod]
    constructor
    · intro h; rw [h, Nat.zero_mul]
    · intro h
      rcases Nat.mul_eq_zero.1 h with h | h
      · exact h
      · omega

/-- The integer part is smaller than the number. -/
theorem small_tdiv (hf : f.Ok) (h : ex f u < f.bias) : units f u < one f := by
  have hB := hf.bias_big
  have := units_lt_of_ex (u := u) (k := f.bias - 1) hf (by omega) (by omega)
  rw [one_eq hf, ← Nat.pow_add]
  exact this

theorem mod_low_sign (hu : u < 2 ^ f.width) : u % 2 ^ (f.width - 1) = 0 ↔ u = pack f (sgn f u) 0 0 := by
  rw [← sgn_mask hu]
  have := Nat.div_add_mod' u (2 ^ (f.width - 1))
  omega

/-! ### trunc -/

/-- trunc: the integer part, with the sign of the argument. -/
theorem trunc_spec (hf : f.Ok) (hu : u < 2 ^ f.width) (hfin : Finite f u) :
    Result f u (trunc f u) ((val f u).tdiv (one f) * one f) := by
  unfold trunc
  simp only
  by_cases h : f.mb + f.bias ≤ ex f u
  · rw [if_pos h]
    obtain ⟨n, hn⟩ := whole_of_ex hf (u := u) (by omega)
    obtain ⟨k, hk⟩ := val_whole hn
    rw [tdiv_whole hk]
    exact result_self hu hfin
  rw [if_neg h]
  by_cases h2 : ex f u < f.bias
  · rw [if_pos h2, ones_shift (by unfold Fmt.width; omega), Nat.and_two_pow_sub_one_eq_mod, inv, and_not_mask (by omega) hu, sgn_mask hu]
    have hz : (val f u).tdiv (one f) = 0 := by
      have := small_tdiv hf h2
      unfold val
      split
      · rw [Int.neg_tdiv, ← Int.ofNat_tdiv, Nat.div_eq_of_lt this]; rfl
      · rw [← Int.ofNat_tdiv, Nat.div_eq_of_lt this]; rfl
    rw [hz, Int.zero_mul]
    split
    · rename_i hz
      have h0 := zero_result hf hu
      rw [← (mod_low_sign hu).1 hz] at h0
      exact h0
    · exact zero_result hf hu
  · rw [if_neg h2]
    have hc := cleared hf hu (by omega) (by omega)
    simp only at hc
    have hw : f.width - (ex f u - f.bias + (f.eb + 1)) = f.mb - (ex f u - f.bias) := by unfold Fmt.width; omega
    rw [ones_shift (by unfold Fmt.width; omega), hw, Nat.and_two_pow_sub_one_eq_mod, inv, and_not_mask (by unfold Fmt.width; omega) hu]
    split
    · rename_i hz
      have e : u / 2 ^ (f.mb - (ex f u - f.bias)) * 2 ^ (f.mb - (ex f u - f.bias)) = u := by
        have := Nat.div_add_mod' u (2 ^ (f.mb - (ex f u - f.bias)))
        omega
      have h1 := hc.1
      rw [e] at h1
      exact h1
    · exact hc.1

theorem trunc_same (h : ¬Finite f u) (hf : f.Ok) : trunc f u = u := by
  have := hf.emax_eq
  have := hf.bias_big
  unfold Finite at h
  rw [trunc, if_pos (by omega)]

/-! ### floor and ceil -/

/-- What is common to floor, ceil and round: the integer next to the number, and the number added to the difference. -/
theorem diff_val (hf : f.Ok) (hu : u < 2 ^ f.width) (h1 : f.bias - 1 ≤ ex f u) (h2 : ex f u < f.bias + f.mb) :
    (fsub f mode (near f mode u) (dec f u)).val = (near f mode u).val - val f u ∧
    (fadd f mode (dec f u) (fsub f mode (near f mode u) (dec f u))).val = (near f mode u).val := by
  have hl := units_lt_toint hf h2
  have hn := near_val (mode := mode) hf hu h2
  have e1 : (fsub f mode (near f mode u) (dec f u)).val = (near f mode u).val - val f u := by
    rw [fsub_exact, dec_val]
    rw [dec_val, hn, val]
    by_cases hs : sgn f u = 1
    · rw [if_pos hs, if_pos hs]
      have hd := nearN_diff (f := f) (mode := mode) (neg := true) (m := units f u)
      have := rep_diff hf h1 h2 hd.1
      rw [← Int.natAbs_neg]
      have e : -(-(↑(nearN f mode true (units f u)) * ↑(one f)) - -(units f u : Int)) = ((nearN f mode true (units f u) * one f : Nat) - units f u : Int) := by
        push_cast; ring
      rw [e]; exact this
    · rw [if_neg hs, if_neg hs]
      have hd := nearN_diff (f := f) (mode := mode) (neg := false) (m := units f u)
      have := rep_diff hf h1 h2 hd.1
      push_cast at this ⊢
      exact this
  refine ⟨e1, ?_⟩
  have e2 : (dec f u).val + (fsub f mode (near f mode u) (dec f u)).val = (near f mode u).val := by
    rw [e1, dec_val]; ring
  rw [fadd_exact, e2]
  rw [e2, hn]
  have h0 := two_le hf
  split
  · have := nearN_le (mode := mode) (neg := true) hl
    rw [Int.natAbs_neg, Int.natAbs_mul, Int.natAbs_natCast, Int.natAbs_natCast]
    exact rep_mul_one (by rw [Nat.pow_succ]; omega)
  · have := nearN_le (mode := mode) (neg := false) hl
    rw [Int.natAbs_mul, Int.natAbs_natCast, Int.natAbs_natCast]
    exact rep_mul_one (by rw [Nat.pow_succ]; omega)

theorem natAbs_lit {n : Int} : (n * (one f : Int)).natAbs = n.natAbs * one f := by rw [Int.natAbs_mul, Int.natAbs_natCast]

theorem add_lit (hf : f.Ok) {a : Num} {n : Int} (ha : a.val = n * one f) (h : n.natAbs ≤ 2 ^ f.mb) :
    (fadd f mode a (lit f f.bias)).val = (n + 1) * one f ∧ (fsub f mode a (lit f f.bias)).val = (n - 1) * one f := by
  have h0 := two_le hf
  have hl : (lit f f.bias).val = one f := by rw [lit_one hf]; rfl
  constructor
  · have e : a.val + (lit f f.bias).val = (n + 1) * one f := by rw [ha, hl]; ring
    rw [fadd_exact, e]
    rw [e, natAbs_lit]
    exact rep_mul_one (by rw [Nat.pow_succ]; omega)
  · have e : a.val - (lit f f.bias).val = (n - 1) * one f := by rw [ha, hl]; ring
    rw [fsub_exact, e]
    rw [e, natAbs_lit]
    exact rep_mul_one (by rw [Nat.pow_succ]; omega)

theorem int_result (hf : f.Ok) (hu : u < 2 ^ f.width) {a : Num} {n : Int} (ha : a.val = n * one f) (h0 : n ≠ 0)
    (hl : n.natAbs < 2 ^ (f.mb + 1)) (hs : n < 0 ↔ sgn f u = 1) : Result f u (enc f a) (n * one f) := by
  obtain ⟨h1, h2, h3, h4⟩ := enc_int hf ha h0 hl
  refine ⟨h1, h2, ?_, h3⟩
  have := sgn_lt hu
  rw [h4]
  split <;> omega

/-- The integer next to the number, in terms of its value. -/
theorem near_int (hf : f.Ok) (hu : u < 2 ^ f.width) (h2 : ex f u < f.bias + f.mb) :
    ∃ n : Int, (near f mode u).val = n * one f ∧ n.natAbs ≤ 2 ^ f.mb ∧ val f u - one f < n * one f ∧ n * one f < val f u + one f ∧
      (sgn f u = 1 → n ≤ 0) ∧ (sgn f u ≠ 1 → 0 ≤ n) := by
  have hl := units_lt_toint hf h2
  have hn := near_val (mode := mode) hf hu h2
  have ho := one_pos f
  have hd := Nat.div_add_mod' (units f u) (one f)
  have hlt := Nat.mod_lt (units f u) ho
  have key : ∀ neg, units f u < nearN f mode neg (units f u) * one f + one f ∧ nearN f mode neg (units f u) * one f < units f u + one f := by
    intro neg
    rcases (nearN_diff (f := f) (mode := mode) (neg := neg) (m := units f u)).2 with h | ⟨h, h'⟩
    · rw [h]; omega
    · rw [h, Nat.add_mul, Nat.one_mul]; omega
  by_cases hs : sgn f u = 1
  · rw [if_pos hs] at hn
    have := nearN_le (mode := mode) (neg := true) hl
    have hk := key true
    zify at hk
    refine ⟨-(nearN f mode true (units f u) : Int), by rw [hn, Int.neg_mul], by omega, ?_, ?_, fun _ => by omega, fun h => absurd hs h⟩
    · rw [val, if_pos hs, Int.neg_mul]; omega
    · rw [val, if_pos hs, Int.neg_mul]; omega
  · rw [if_neg hs] at hn
    have := nearN_le (mode := mode) (neg := false) hl
    have hk := key false
    zify at hk
    refine ⟨(nearN f mode false (units f u) : Int), hn, by omega, ?_, ?_, fun h => absurd h hs, fun _ => by omega⟩
    · rw [val, if_neg hs]; omega
    · rw [val, if_neg hs]; omega

theorem val_big (hf : f.Ok) (h : f.bias ≤ ex f u) : (sgn f u = 1 → val f u ≤ -(one f : Int)) ∧ (sgn f u ≠ 1 → (one f : Int) ≤ val f u) := by
  have hB := hf.bias_big
  have h1 : one f ≤ units f u := by
    have := units_ge_of_ex (f := f) (u := u) (k := f.bias - 1) (by omega)
    rw [one_eq hf, ← Nat.pow_add]; exact this
  unfold val
  constructor
  · intro hs; rw [if_pos hs]; omega
  · intro hs; rw [if_neg hs]; omega

theorem mul_lt_one {n o : Int} (ho : 0 < o) (h : n * o < o) : n ≤ 0 := by
  by_contra hc
  have : 1 * o ≤ n * o := Int.mul_le_mul_of_nonneg_right (by omega) (by omega)
  omega

theorem one_le_mul {n o : Int} (ho : 0 < o) (h : 0 < n * o) : 1 ≤ n := by
  by_contra hc
  have : n * o ≤ 0 * o := Int.mul_le_mul_of_nonneg_right (by omega) (by omega)
  omega

theorem const_one (hf : f.Ok) {s : Nat} (hs : s < 2) : pack f s f.bias 0 < 2 ^ f.width ∧ Finite f (pack f s f.bias 0) ∧ sgn f (pack f s f.bias 0) = s ∧ units f (pack f s f.bias 0) = one f := by
  have hB := hf.bias_big
  have hb := bias_lt hf
  have hm : 0 < 2 ^ f.mb := by positivity
  have he : f.bias < 2 ^ f.eb := by omega
  refine ⟨pack_lt hs he hm, ?_, sgn_pack he hm, ?_⟩
  · rw [Finite, ex_pack he hm, hf.emax_eq]; omega
  · rw [units_lit hf (by omega) he, one]; congr 1; omega

/-- floor: the largest integer that is not above the argument, in every rounding mode. -/
theorem floor_spec (hf : f.Ok) (hu : u < 2 ^ f.width) (hfin : Finite f u) :
    Result f u (floor f mode u) (val f u / one f * one f) := by
  have ho := one_pos f
  have hB := hf.bias_big
  unfold floor
  simp only
  by_cases h : f.bias + f.mb ≤ ex f u ∨ (dec f u).val = 0
  · rw [if_pos h]
    have : ∃ k : Int, val f u = k * one f := by
      rcases h with h | h
      · obtain ⟨n, hn⟩ := whole_of_ex hf (u := u) h
        exact val_whole hn
      · exact ⟨0, by rw [← dec_val, h]; simp⟩
    obtain ⟨k, hk⟩ := this
    rw [ediv_whole hk]
    exact result_self hu hfin
  rw [if_neg h]
  have hz : val f u ≠ 0 := fun hc => h (Or.inr (by rw [dec_val]; exact hc))
  have h2 : ex f u < f.bias + f.mb := by omega
  by_cases h3 : ex f u ≤ f.bias - 1
  · rw [if_pos h3]
    have hlt := small_tdiv hf (u := u) (by omega)
    by_cases hs : sgn f u = 1
    · rw [if_pos hs]
      obtain ⟨c1, c2, c3, c4⟩ := const_one hf (s := 1) (by omega)
      have : val f u / one f = -1 := by
        refine floor_unique (by omega) ?_ ?_ <;> rw [val, if_pos hs] at * <;> omega
      refine result_of c1 c2 (by rw [c3, hs]) ?_
      rw [if_pos hs, this, c4]; omega
    · rw [if_neg hs]
      have hs0 : sgn f u = 0 := by have := sgn_lt hu; omega
      have h0 := zero_result hf hu
      rw [hs0] at h0
      have : val f u / one f = 0 := by
        refine floor_unique (by omega) ?_ ?_ <;> rw [val, if_neg hs] at * <;> omega
      rw [this, Int.zero_mul]
      have : pack f 0 0 0 = 0 := by simp [pack]
      rw [this] at h0
      exact h0
  · rw [if_neg h3]
    obtain ⟨d1, d2⟩ := diff_val (mode := mode) hf hu (by omega) h2
    obtain ⟨n, n1, n2, n3, n4, n5, n6⟩ := near_int (mode := mode) hf hu h2
    obtain ⟨v1, v2⟩ := val_big hf (u := u) (by omega)
    rw [n1] at d1 d2
    have hp : 4 ≤ 2 ^ f.mb := two_le hf
    have hq : 2 ^ (f.mb + 1) = 2 * 2 ^ f.mb := by rw [Nat.pow_succ']
    by_cases hy : 0 < (fsub f mode (near f mode u) (dec f u)).val
    · rw [if_pos hy]
      rw [d1] at hy
      have hr := (add_lit (mode := mode) hf d2 n2).2
      have hv : val f u / one f = n - 1 := by
        refine floor_unique (by omega) ?_ ?_ <;> rw [Int.sub_mul, Int.one_mul] <;> omega
      rw [hv]
      have hs : n - 1 < 0 ↔ sgn f u = 1 := by
        constructor
        · intro hc
          by_contra hs
          have := v2 hs
          have : 0 < (n - 1) * (one f : Int) + one f := by rw [Int.sub_mul, Int.one_mul]; omega
          have : (n - 1) * (one f : Int) ≥ 0 := by
            have e : n * (one f : Int) > one f := by omega
            have : 1 ≤ n - 1 := by
              refine one_le_mul (o := one f) (by omega) ?_
              rw [Int.sub_mul, Int.one_mul]; omega
            omega
          have : 1 ≤ n - 1 := by
            refine one_le_mul (o := one f) (by omega) ?_
            rw [Int.sub_mul, Int.one_mul]; omega
          omega
        · intro hs; have := n5 hs; omega
      refine int_result hf hu hr ?_ (by omega) hs
      intro hc
      by_cases hs1 : sgn f u = 1
      · have := hs.2 hs1; omega
      · have := v2 hs1
        have : 1 ≤ n - 1 := by
          refine one_le_mul (o := one f) (by omega) ?_
          rw [Int.sub_mul, Int.one_mul]; omega
        omega
    · rw [if_neg hy]
      rw [d1] at hy
      have hv : val f u / one f = n := floor_unique (by omega) (by omega) (by omega)
      rw [hv]
      have hs : n < 0 ↔ sgn f u = 1 := by
        constructor
        · intro hc
          by_contra hs
          have := n6 hs
          omega
        · intro hs
          have := v1 hs
          by_contra hc
          have : n * (one f : Int) ≥ 0 := Int.mul_nonneg (by omega) (by omega)
          omega
      refine int_result hf hu d2 ?_ (by omega) hs
      intro hc
      by_cases hs1 : sgn f u = 1
      · have := hs.2 hs1; omega
      · have := v2 hs1
        rw [hc] at n3; omega

/-- ceil: the smallest integer that is not below the argument, in every rounding mode. -/
theorem ceil_spec (hf : f.Ok) (hu : u < 2 ^ f.width) (hfin : Finite f u) :
    Result f u (ceil f mode u) (-(-val f u / one f) * one f) := by
  have ho := one_pos f
  have hB := hf.bias_big
  unfold ceil
  simp only
  by_cases h : f.bias + f.mb ≤ ex f u ∨ (dec f u).val = 0
  · rw [if_pos h]
    have : ∃ k : Int, val f u = k * one f := by
      rcases h with h | h
      · obtain ⟨n, hn⟩ := whole_of_ex hf (u := u) h
        exact val_whole hn
      · exact ⟨0, by rw [← dec_val, h]; simp⟩
    obtain ⟨k, hk⟩ := this
    rw [neg_ediv_whole hk]
    exact result_self hu hfin
  rw [if_neg h]
  have hz : val f u ≠ 0 := fun hc => h (Or.inr (by rw [dec_val]; exact hc))
  have h2 : ex f u < f.bias + f.mb := by omega
  by_cases h3 : ex f u ≤ f.bias - 1
  · rw [if_pos h3]
    have hlt := small_tdiv hf (u := u) (by omega)
    by_cases hs : sgn f u = 1
    · rw [if_pos hs]
      have h0 := zero_result hf hu
      rw [hs] at h0
      have : -val f u / one f = 0 := by
        refine floor_unique (by omega) ?_ ?_ <;> rw [val, if_pos hs] at * <;> omega
      rw [this, Int.neg_zero, Int.zero_mul]
      exact h0
    · rw [if_neg hs]
      have hs0 : sgn f u = 0 := by have := sgn_lt hu; omega
      obtain ⟨c1, c2, c3, c4⟩ := const_one hf (s := 0) (by omega)
      have : -val f u / one f = -1 := by
        refine floor_unique (by omega) ?_ ?_ <;> rw [val, if_neg hs] at * <;> omega
      refine result_of c1 c2 (by rw [c3, hs0]) ?_
      rw [if_neg hs, this, c4]; omega
  · rw [if_neg h3]
    obtain ⟨d1, d2⟩ := diff_val (mode := mode) hf hu (by omega) h2
    obtain ⟨n, n1, n2, n3, n4, n5, n6⟩ := near_int (mode := mode) hf hu h2
    obtain ⟨v1, v2⟩ := val_big hf (u := u) (by omega)
    rw [n1] at d1 d2
    have hp : 4 ≤ 2 ^ f.mb := two_le hf
    have hq : 2 ^ (f.mb + 1) = 2 * 2 ^ f.mb := by rw [Nat.pow_succ']
    by_cases hy : (fsub f mode (near f mode u) (dec f u)).val < 0
    · rw [if_pos hy]
      rw [d1] at hy
      have hr := (add_lit (mode := mode) hf d2 n2).1
      have hv : -val f u / one f = -(n + 1) := by
        refine floor_unique (by omega) ?_ ?_ <;> rw [Int.neg_mul, Int.add_mul, Int.one_mul] <;> omega
      rw [hv, Int.neg_neg]
      have hneg : sgn f u = 1 → n + 1 ≤ -1 := by
        intro hs
        have := v1 hs
        have : 1 ≤ -(n + 1) := by
          refine one_le_mul (o := one f) (by omega) ?_
          rw [Int.neg_mul, Int.add_mul, Int.one_mul]; omega
        omega
      have hpos : sgn f u ≠ 1 → 0 ≤ n := n6
      refine int_result hf hu hr ?_ (by omega) ?_
      · by_cases hs : sgn f u = 1
        · have := hneg hs; omega
        · have := hpos hs; omega
      · constructor
        · intro hc
          by_contra hs
          have := hpos hs; omega
        · intro hs; have := hneg hs; omega
    · rw [if_neg hy]
      rw [d1] at hy
      have hv : -val f u / one f = -n := floor_unique (by omega) (by rw [Int.neg_mul]; omega) (by rw [Int.neg_mul]; omega)
      rw [hv, Int.neg_neg]
      have hs : n < 0 ↔ sgn f u = 1 := by
        constructor
        · intro hc
          by_contra hs
          have := n6 hs
          omega
        · intro hs
          have := v1 hs
          have := n5 hs
          have : n ≠ 0 := by
            intro hc
            rw [hc] at n4; omega
          omega
      refine int_result hf hu d2 ?_ (by omega) hs
      intro hc
      by_cases hs1 : sgn f u = 1
      · have := hs.2 hs1; omega
      · have := v2 hs1
        rw [hc] at hy; omega

/-! ### floorf and ceilf -/

/-- Adding the mask and clearing the bits: the next integer away from zero. The carry may reach the exponent. -/
theorem carried (hf : f.Ok) (hu : u < 2 ^ f.width) (h1 : f.bias ≤ ex f u) (h2 : ex f u < f.bias + f.mb)
    (h3 : u % 2 ^ (f.mb - (ex f u - f.bias)) ≠ 0) :
    let k := f.mb - (ex f u - f.bias)
    let r := (u + (2 ^ k - 1)) / 2 ^ k * 2 ^ k
    u + (2 ^ k - 1) < 2 ^ f.width ∧ r < 2 ^ f.width ∧ Finite f r ∧ sgn f r = sgn f u ∧ units f r = (units f u / one f + 1) * one f := by
  intro k r
  have hB := hf.bias_big
  have hE := hf.emax_eq
  have hp : 0 < 2 ^ k := by positivity
  have hk : k ≤ f.mb := Nat.sub_le _ _
  have hc := cleared hf hu h1 h2
  simp only at hc
  have hm := man_lt (f := f) u
  have hm2 := mul_low_lt (k := k) hm
  have he := ex_lt (f := f) u
  have hsp : 2 ^ f.mb = 2 ^ k * 2 ^ (f.mb - k) := pow_split hk
  have hmk : man f u / 2 ^ k < 2 ^ (f.mb - k) := by
    rw [Nat.div_lt_iff_lt_mul hp, Nat.mul_comm, ← hsp]; exact hm
  have hup : man f u / 2 ^ k * 2 ^ k + 2 ^ k ≤ 2 ^ f.mb := by
    have : (man f u / 2 ^ k + 1) * 2 ^ k ≤ 2 ^ (f.mb - k) * 2 ^ k := Nat.mul_le_mul_right _ hmk
    rw [Nat.add_mul, Nat.one_mul] at this
    rw [hsp, Nat.mul_comm (2 ^ k) (2 ^ (f.mb - k))]
    exact this
  have hr0 : r = u / 2 ^ k * 2 ^ k + 2 ^ k := by
    have hd := Nat.div_add_mod' u (2 ^ k)
    have hl := Nat.mod_lt u hp
    have e : u + (2 ^ k - 1) = (u % 2 ^ k - 1) + (u / 2 ^ k + 1) * 2 ^ k := by
      have : u % 2 ^ k ≠ 0 := h3
      rw [Nat.add_mul, Nat.one_mul]; omega
    show (u + (2 ^ k - 1)) / 2 ^ k * 2 ^ k = _
    rw [e, Nat.add_mul_div_right _ _ hp, Nat.div_eq_of_lt (by omega), Nat.zero_add, Nat.add_mul, Nat.one_mul]
  have hr1 : r = pack f (sgn f u) (ex f u) (man f u / 2 ^ k * 2 ^ k + 2 ^ k) := by
    rw [hr0, clear_low (f := f) hk, pack, pack, Nat.add_assoc]
  have hone : one f = 2 ^ k * 2 ^ (ex f u - 1) := by rw [one, ← Nat.pow_add]; congr 1; omega
  have hur : units f u / one f * one f = (2 ^ f.mb + man f u / 2 ^ k * 2 ^ k) * 2 ^ (ex f u - 1) := by
    rw [← hc.2.1, clear_low (f := f) hk, units_pack he hm2, if_neg (by omega)]
  have hgoal : (units f u / one f + 1) * one f = (2 ^ f.mb + (man f u / 2 ^ k * 2 ^ k + 2 ^ k)) * 2 ^ (ex f u - 1) := by
    rw [Nat.add_mul, hur, Nat.one_mul]
    conv => lhs; rw [hone]
    ring
  have hmask : u + (2 ^ k - 1) ≤ r + (2 ^ k - 1) := by
    have hd := Nat.div_add_mod' u (2 ^ k)
    have hl := Nat.mod_lt u hp
    omega
  have hs := sgn_lt hu
  by_cases hlast : man f u / 2 ^ k * 2 ^ k + 2 ^ k = 2 ^ f.mb
  · have hr2 : r = pack f (sgn f u) (ex f u + 1) 0 := by
      rw [hr1, hlast, pack, pack]; ring
    have hz : 0 < 2 ^ f.mb := by positivity
    have he1 : ex f u + 1 < 2 ^ f.eb := by have := emax_lt f; omega
    have hlt : r < 2 ^ f.width := by rw [hr2]; exact pack_lt hs he1 hz
    refine ⟨?_, hlt, ?_, ?_, ?_⟩
    · have hb : pack f (sgn f u) (ex f u + 1) (2 ^ f.mb - 1) < 2 ^ f.width := pack_lt hs he1 (by omega)
      have : pack f (sgn f u) (ex f u + 1) (2 ^ f.mb - 1) = r + (2 ^ f.mb - 1) := by rw [hr2, pack, pack]; omega
      have : 2 ^ k ≤ 2 ^ f.mb := Nat.pow_le_pow_right (by omega) hk
      omega
    · rw [hr2, Finite, ex_pack he1 hz]; omega
    · rw [hr2, sgn_pack he1 hz]
    · rw [hgoal, hlast, hr2, units_pack he1 hz, if_neg (by omega)]
      have : 2 ^ (ex f u + 1 - 1) = 2 * 2 ^ (ex f u - 1) := by rw [← Nat.pow_succ']; congr 1; omega
      rw [this]; ring
  · have hlt : man f u / 2 ^ k * 2 ^ k + 2 ^ k < 2 ^ f.mb := by omega
    have hd : 2 ^ k ∣ 2 ^ f.mb := Nat.pow_dvd_pow _ hk
    refine ⟨?_, ?_, ?_, ?_, ?_⟩
    · have hle : man f u / 2 ^ k * 2 ^ k + 2 ^ k + (2 ^ k - 1) < 2 ^ f.mb := by
        have : man f u / 2 ^ k + 1 < 2 ^ (f.mb - k) := by
          by_contra hcon
          have heq : man f u / 2 ^ k + 1 = 2 ^ (f.mb - k) := by omega
          apply hlast
          have : (man f u / 2 ^ k + 1) * 2 ^ k = 2 ^ (f.mb - k) * 2 ^ k := by rw [heq]
          rw [Nat.add_mul, Nat.one_mul] at this
          rw [this, Nat.mul_comm, ← hsp]
        have : (man f u / 2 ^ k + 2) * 2 ^ k ≤ 2 ^ (f.mb - k) * 2 ^ k := Nat.mul_le_mul_right _ (by omega)
        rw [Nat.add_mul, Nat.mul_comm (2 ^ (f.mb - k)), ← hsp] at this
        omega
      have hb := pack_lt (f := f) hs he hle
      have : pack f (sgn f u) (ex f u) (man f u / 2 ^ k * 2 ^ k + 2 ^ k + (2 ^ k - 1)) = r + (2 ^ k - 1) := by rw [hr1, pack, pack]; omega
      omega
    · rw [hr1]; exact pack_lt hs he hlt
    · rw [hr1, Finite, ex_pack he hlt]; exact finite_of_lt hf h2
    · rw [hr1, sgn_pack he hlt]
    · rw [hgoal, hr1, units_pack he hlt, if_neg (by omega)]

theorem shl_zero (hu : u < 2 ^ f.width) : u * 2 % 2 ^ f.width = 0 ↔ u % 2 ^ (f.width - 1) = 0 := by
  have h1 : 2 ^ f.width = 2 ^ (f.width - 1) * 2 := by rw [← Nat.pow_succ]; rfl
  rw [h1, Nat.mul_mod_mul_right]
  omega

theorem units_zero (hu : u < 2 ^ f.width) : u % 2 ^ (f.width - 1) = 0 ↔ units f u = 0 := by
  have hp : 0 < 2 ^ f.eb := by positivity
  have hm : 0 < 2 ^ f.mb := by positivity
  rw [mod_low_sign hu]
  constructor
  · intro h
    rw [h, units_pack hp hm]; simp
  · intro h
    unfold units at h
    split at h
    · rename_i he
      conv => lhs; rw [← pack_fields (f := f) u, he, h]
    · have : 0 < (2 ^ f.mb + man f u) * 2 ^ (ex f u - 1) := Nat.mul_pos (by omega) (by positivity)
      omega

theorem mask_eq (hf : f.Ok) (h1 : f.bias ≤ ex f u) (h2 : ex f u < f.bias + f.mb) : (2 ^ f.mb - 1) >>> (ex f u - f.bias) = 2 ^ (f.mb - (ex f u - f.bias)) - 1 :=
  ones_shift (by omega)

theorem clear_same {k : Nat} (h : u % 2 ^ k = 0) : u / 2 ^ k * 2 ^ k = u := by
  have := Nat.div_add_mod' u (2 ^ k)
  omega

/-- floorf. -/
theorem floorf_spec (hf : f.Ok) (hu : u < 2 ^ f.width) (hfin : Finite f u) :
    Result f u (floorf f u) (val f u / one f * one f) := by
  have ho := one_pos f
  have hB := hf.bias_big
  have hs2 := sgn_lt hu
  unfold floorf
  simp only
  by_cases h : f.bias + f.mb ≤ ex f u
  · rw [if_pos h]
    obtain ⟨n, hn⟩ := whole_of_ex hf (u := u) h
    obtain ⟨k, hk⟩ := val_whole hn
    rw [ediv_whole hk]
    exact result_self hu hfin
  rw [if_neg h]
  by_cases h1 : f.bias ≤ ex f u
  · rw [if_pos h1, mask_eq hf h1 (by omega), Nat.and_two_pow_sub_one_eq_mod, inv]
    have hc := cleared hf hu h1 (by omega)
    simp only at hc
    have hd := Nat.div_add_mod' (units f u) (one f)
    have hl := Nat.mod_lt (units f u) ho
    by_cases hz : u % 2 ^ (f.mb - (ex f u - f.bias)) = 0
    · rw [if_pos hz]
      have : ∃ n, units f u = n * one f := ⟨units f u / one f, by have := hc.2.2.1 hz; omega⟩
      obtain ⟨n, hn⟩ := this
      obtain ⟨k, hk⟩ := val_whole hn
      rw [ediv_whole hk]
      exact result_self hu hfin
    · rw [if_neg hz]
      by_cases hs : sgn f u ≠ 0
      · rw [if_pos hs]
        have hs1 : sgn f u = 1 := by omega
        obtain ⟨a0, a1, a2, a3, a4⟩ := carried hf hu h1 (by omega) hz
        rw [Nat.mod_eq_of_lt a0, and_not_mask (by unfold Fmt.width; omega) a0]
        refine result_of a1 a2 a3 ?_
        have hnz : units f u % one f ≠ 0 := fun hc2 => hz (hc.2.2.2 hc2)
        rw [if_pos hs1, a4, floor_unique (q := -((units f u / one f + 1 : Nat) : Int)) (by omega) ?_ ?_]
        · push_cast; rw [Int.neg_mul]
        · rw [val, if_pos hs1, Int.neg_mul, ← Int.natCast_mul, Nat.add_mul, Nat.one_mul]; omega
        · rw [val, if_pos hs1, Int.neg_mul, ← Int.natCast_mul, Nat.add_mul, Nat.one_mul]; omega
      · rw [if_neg hs, and_not_mask (by unfold Fmt.width; omega) hu]
        have hs1 : sgn f u ≠ 1 := by omega
        have e : val f u / one f = (val f u).tdiv (one f) := by
          rw [val, if_neg hs1, Int.tdiv_eq_ediv_of_nonneg (by omega)]
        rw [e]
        exact hc.1
  · rw [if_neg h1]
    have hlt := small_tdiv hf (u := u) (by omega)
    by_cases hs : sgn f u = 0
    · rw [if_pos hs]
      have h0 := zero_result hf hu
      rw [hs] at h0
      have : val f u / one f = 0 := by
        refine floor_unique (by omega) ?_ ?_ <;> rw [val, if_neg (by omega)] <;> omega
      rw [this, Int.zero_mul]
      have : pack f 0 0 0 = 0 := by simp [pack]
      rw [this] at h0
      exact h0
    · rw [if_neg hs]
      have hs1 : sgn f u = 1 := by omega
      by_cases hz : (u * 2) % 2 ^ f.width = 0
      · rw [if_neg (by omega)]
        have : units f u = 0 := (units_zero hu).1 ((shl_zero hu).1 hz)
        have hv : val f u = 0 := by rw [val, if_pos hs1, this]; rfl
        have h0 := result_self hu hfin
        rw [hv] at h0 ⊢
        simp
        exact h0
      · rw [if_pos hz]
        have : units f u ≠ 0 := fun hc => hz ((shl_zero hu).2 ((units_zero hu).2 hc))
        obtain ⟨c1, c2, c3, c4⟩ := const_one hf (s := 1) (by omega)
        have : val f u / one f = -1 := by
          refine floor_unique (by omega) ?_ ?_ <;> rw [val, if_pos hs1] <;> omega
        refine result_of c1 c2 (by rw [c3, hs1]) ?_
        rw [if_pos hs1, this, c4]; omega

/-- ceilf. -/
theorem ceilf_spec (hf : f.Ok) (hu : u < 2 ^ f.width) (hfin : Finite f u) :
    Result f u (ceilf f u) (-(-val f u / one f) * one f) := by
  have ho := one_pos f
  have hB := hf.bias_big
  have hs2 := sgn_lt hu
  unfold ceilf
  simp only
  by_cases h : f.bias + f.mb ≤ ex f u
  · rw [if_pos h]
    obtain ⟨n, hn⟩ := whole_of_ex hf (u := u) h
    obtain ⟨k, hk⟩ := val_whole hn
    rw [neg_ediv_whole hk]
    exact result_self hu hfin
  rw [if_neg h]
  by_cases h1 : f.bias ≤ ex f u
  · rw [if_pos h1, mask_eq hf h1 (by omega), Nat.and_two_pow_sub_one_eq_mod, inv]
    have hc := cleared hf hu h1 (by omega)
    simp only at hc
    have hd := Nat.div_add_mod' (units f u) (one f)
    have hl := Nat.mod_lt (units f u) ho
    by_cases hz : u % 2 ^ (f.mb - (ex f u - f.bias)) = 0
    · rw [if_pos hz]
      have : ∃ n, units f u = n * one f := ⟨units f u / one f, by have := hc.2.2.1 hz; omega⟩
      obtain ⟨n, hn⟩ := this
      obtain ⟨k, hk⟩ := val_whole hn
      rw [neg_ediv_whole hk]
      exact result_self hu hfin
    · rw [if_neg hz]
      by_cases hs : sgn f u = 0
      · rw [if_pos hs]
        have hs1 : sgn f u ≠ 1 := by omega
        obtain ⟨a0, a1, a2, a3, a4⟩ := carried hf hu h1 (by omega) hz
        rw [Nat.mod_eq_of_lt a0, and_not_mask (by unfold Fmt.width; omega) a0]
        refine result_of a1 a2 a3 ?_
        have hnz : units f u % one f ≠ 0 := fun hc2 => hz (hc.2.2.2 hc2)
        rw [if_neg hs1, a4, floor_unique (q := -((units f u / one f + 1 : Nat) : Int)) (by omega) ?_ ?_]
        · push_cast; rw [Int.neg_neg]
        · rw [val, if_neg hs1, Int.neg_mul, ← Int.natCast_mul, Nat.add_mul, Nat.one_mul]; omega
        · rw [val, if_neg hs1, Int.neg_mul, ← Int.natCast_mul, Nat.add_mul, Nat.one_mul]; omega
      · rw [if_neg hs, and_not_mask (by unfold Fmt.width; omega) hu]
        have hs1 : sgn f u = 1 := by omega
        have e : -(-val f u / one f) = (val f u).tdiv (one f) := by
          rw [val, if_pos hs1, Int.neg_neg, Int.neg_tdiv, Int.tdiv_eq_ediv_of_nonneg (by omega)]
        rw [e]
        exact hc.1
  · rw [if_neg h1]
    have hlt := small_tdiv hf (u := u) (by omega)
    by_cases hs : sgn f u = 0
    · rw [if_neg (by omega)]
      have hs1 : sgn f u ≠ 1 := by omega
      by_cases hz : (u * 2) % 2 ^ f.width = 0
      · rw [if_neg (by omega)]
        have : units f u = 0 := (units_zero hu).1 ((shl_zero hu).1 hz)
        have hv : val f u = 0 := by rw [val, if_neg hs1, this]; rfl
        have h0 := result_self hu hfin
        rw [hv] at h0 ⊢
        simp
        exact h0
      · rw [if_pos hz]
        have : units f u ≠ 0 := fun hc => hz ((shl_zero hu).2 ((units_zero hu).2 hc))
        obtain ⟨c1, c2, c3, c4⟩ := const_one hf (s := 0) (by omega)
        have : -val f u / one f = -1 := by
          refine floor_unique (by omega) ?_ ?_ <;> rw [val, if_neg hs1] <;> omega
        refine result_of c1 c2 (by rw [c3, hs]) ?_
        rw [if_neg hs1, this, c4]; omega
    · rw [if_pos hs]
      have hs1 : sgn f u = 1 := by omega
      have h0 := zero_result hf hu
      rw [hs1] at h0
      have : -val f u / one f = 0 := by
        refine floor_unique (by omega) ?_ ?_ <;> rw [val, if_pos hs1] <;> omega
      rw [this, Int.neg_zero, Int.zero_mul]
      exact h0

/-! ### round -/

/-- The nearest integer, and of two the one further from zero. -/
def NearestAway (f : Fmt) (z n : Int) : Prop :=
  2 * |n * one f - z| ≤ one f ∧ (2 * |n * one f - z| = one f → |z| < |n * one f|)

/-- The values 1 and 1/2. -/
theorem half_val (hf : f.Ok) : 2 * (lit f (f.bias - 1)).val = one f := by
  have hB := hf.bias_big
  have := bias_lt hf
  rw [lit_val hf (by omega) (by omega)]
  simp only [Num.val, Bool.false_eq_true, if_false]
  have : one f = 2 * 2 ^ (f.mb + (f.bias - 1 - 1)) := by rw [one, ← Nat.pow_succ']; congr 1; omega
  rw [this]; push_cast; rfl

theorem nonneg_zero (hs : sgn f u ≠ 1) : dec f u = ⟨false, units f u⟩ := by simp [dec, hs]

/-- round: the nearest integer, halves away from zero, in every rounding mode. -/
theorem round_spec (hf : f.Ok) (hu : u < 2 ^ f.width) (hfin : Finite f u) :
    ∃ n, Result f u (round f mode u) (n * one f) ∧ NearestAway f (val f u) n := by
  have ho := one_pos f
  have hB := hf.bias_big
  have hs2 := sgn_lt hu
  have hmb := hf.mb2
  unfold round
  simp only
  by_cases h : f.bias + f.mb ≤ ex f u
  · rw [if_pos h]
    obtain ⟨n, hn⟩ := whole_of_ex hf (u := u) h
    obtain ⟨k, hk⟩ := val_whole hn
    refine ⟨k, hk ▸ result_self hu hfin, ?_, ?_⟩
    · rw [hk, Int.sub_self]; simp
    · rw [hk, Int.sub_self]; simp; omega
  rw [if_neg h]
  have h2 : ex f u < f.bias + f.mb := by omega
  have hhalf := half_val hf
  by_cases h1 : ex f u < f.bias - 1
  · rw [if_pos h1]
    refine ⟨0, ?_, ?_⟩
    · have h0 := zero_result hf hu
      have e : enc f ⟨decide (sgn f u = 1), 0⟩ = pack f (sgn f u) 0 0 := by
        unfold enc
        simp only
        rw [if_pos (by positivity)]
        congr 1
        simp only [decide_eq_true_eq]
        split <;> omega
      rw [e, Int.zero_mul]; exact h0
    · have hlt : 2 * units f u < one f := by
        have := units_lt_of_ex (u := u) (k := f.bias - 2) hf (by omega) (by omega)
        have e : one f = 2 * 2 ^ (f.mb + (f.bias - 2)) := by rw [one, ← Nat.pow_succ']; congr 1; omega
        omega
      have ha : |0 * (one f : Int) - val f u| = units f u := by
        rw [Int.zero_mul, Int.zero_sub, abs_neg, val]
        split
        · rw [abs_neg]; exact abs_of_nonneg (by omega)
        · exact abs_of_nonneg (by omega)
      constructor
      · rw [ha]; omega
      · rw [ha]; omega
  · rw [if_neg h1]
    have hl := units_lt_toint hf h2
    have hp : 4 ≤ 2 ^ f.mb := two_le hf
    have hq : 2 ^ (f.mb + 1) = 2 * 2 ^ f.mb := by rw [Nat.pow_succ']
    have hn := near_pos (mode := mode) hf hl
    have hnl := nearN_le (mode := mode) (neg := false) hl
    have hdiff := nearN_diff (f := f) (mode := mode) (neg := false) (m := units f u)
    have hge : one f ≤ 2 * units f u := by
      have := units_ge_of_ex (f := f) (u := u) (k := f.bias - 2) (by omega)
      have e : one f = 2 * 2 ^ (f.mb + (f.bias - 2)) := by rw [one, ← Nat.pow_succ']; congr 1; omega
      omega
    generalize hN : nearN f mode false (units f u) = N at *
    generalize hy0 : fsub f mode (fsub f mode (fadd f mode ⟨false, units f u⟩ (toint f)) (toint f)) ⟨false, units f u⟩ = y
    have hxv : (⟨false, units f u⟩ : Num).val = units f u := rfl
    have hyv : y.val = N * one f - units f u := by
      rw [← hy0, fsub_exact, hn, hxv]
      rw [hn, hxv]
      have := rep_diff hf (u := u) (n := N) (by omega) h2 hdiff.1
      push_cast at this
      exact this
    have hsum : (fadd f mode y ⟨false, units f u⟩).val = (N : Int) * one f := by
      have e : y.val + (⟨false, units f u⟩ : Num).val = (N : Int) * one f := by rw [hyv, hxv]; ring
      rw [fadd_exact, e]
      rw [e, natAbs_lit, Int.natAbs_natCast]
      exact rep_mul_one (by omega)
    obtain ⟨l1, l2⟩ := add_lit (mode := mode) hf hsum (by omega)
    have hd := Nat.div_add_mod' (units f u) (one f)
    have hlt := Nat.mod_lt (units f u) ho
    have hNb : ((N : Int) * one f ≤ units f u ∧ (units f u : Int) < N * one f + one f) ∨ ((units f u : Int) < N * one f ∧ (N : Int) * one f < units f u + one f) := by
      rcases hdiff.2 with hc | ⟨hc, hc'⟩
      · left
        rw [← Int.natCast_mul, hc]; omega
      · right
        rw [← Int.natCast_mul, hc, Nat.add_mul, Nat.one_mul]; omega
    -- the magnitude of the result
    have main : ∃ k : Int, 1 ≤ k ∧ k ≤ ((2 ^ f.mb : Nat) : Int) + 1 ∧ 2 * |k * one f - units f u| ≤ one f ∧ (2 * |k * one f - units f u| = one f → (units f u : Int) < k * one f) ∧
        (if (lit f (f.bias - 1)).val < y.val then fsub f mode (fadd f mode y ⟨false, units f u⟩) (lit f f.bias)
          else if y.val ≤ -(lit f (f.bias - 1)).val then fadd f mode (fadd f mode y ⟨false, units f u⟩) (lit f f.bias)
          else fadd f mode y ⟨false, units f u⟩).val = k * one f := by
      by_cases c1 : (lit f (f.bias - 1)).val < y.val
      · rw [if_pos c1]
        rw [hyv] at c1
        refine ⟨N - 1, ?_, by omega, ?_, ?_, l2⟩
        · refine one_le_mul (o := one f) (by omega) ?_
          rw [Int.sub_mul, Int.one_mul]; omega
        · rw [Int.sub_mul, Int.one_mul, abs_of_nonpos (by omega)]; omega
        · rw [Int.sub_mul, Int.one_mul, abs_of_nonpos (by omega)]; omega
      · rw [if_neg c1]
        by_cases c2 : y.val ≤ -(lit f (f.bias - 1)).val
        · rw [if_pos c2]
          rw [hyv] at c1 c2
          refine ⟨N + 1, by omega, by omega, ?_, ?_, l1⟩
          · rw [Int.add_mul, Int.one_mul, abs_of_nonneg (by omega)]; omega
          · rw [Int.add_mul, Int.one_mul, abs_of_nonneg (by omega)]; omega
        · rw [if_neg c2]
          rw [hyv] at c1 c2
          refine ⟨N, ?_, by omega, ?_, ?_, hsum⟩
          · refine one_le_mul (o := one f) (by omega) ?_
            omega
          · rcases abs_cases ((N : Int) * one f - units f u) with ⟨e, _⟩ | ⟨e, _⟩ <;> rw [e] <;> omega
          · rcases abs_cases ((N : Int) * one f - units f u) with ⟨e, _⟩ | ⟨e, _⟩ <;> rw [e] <;> omega
    obtain ⟨k, k1, k2, k3, k4, k5⟩ := main
    generalize (if (lit f (f.bias - 1)).val < y.val then fsub f mode (fadd f mode y ⟨false, units f u⟩) (lit f f.bias)
          else if y.val ≤ -(lit f (f.bias - 1)).val then fadd f mode (fadd f mode y ⟨false, units f u⟩) (lit f f.bias)
          else fadd f mode y ⟨false, units f u⟩) = Y at k5 ⊢
    have hk0 : 0 ≤ k * (one f : Int) := Int.mul_nonneg (by omega) (by omega)
    have hkn : k.natAbs < 2 ^ (f.mb + 1) := by omega
    by_cases hs : sgn f u = 1
    · rw [if_pos hs]
      have hyf : Y.flip.val = (-k) * one f := by rw [flip_val, k5, Int.neg_mul]
      refine ⟨-k, int_result hf hu hyf (by omega) (by omega) (by omega), ?_, ?_⟩
      · rw [val, if_pos hs, show -k * (one f : Int) - -(units f u : Int) = -(k * one f - units f u) by ring, abs_neg]; exact k3
      · rw [val, if_pos hs, show -k * (one f : Int) - -(units f u : Int) = -(k * one f - units f u) by ring, abs_neg, abs_neg, Int.neg_mul, abs_neg,
          abs_of_nonneg (a := (units f u : Int)) (by omega), abs_of_nonneg hk0]
        exact k4
    · rw [if_neg hs]
      refine ⟨k, int_result hf hu k5 (by omega) hkn (by omega), ?_, ?_⟩
      · rw [val, if_neg hs]; exact k3
      · rw [val, if_neg hs, abs_of_nonneg (a := (units f u : Int)) (by omega), abs_of_nonneg hk0]
        exact k4

/-! ### rint -/

theorem chosen_nearN {m : Nat} {neg : Bool} : Chosen f mode (if neg then -(m : Int) else m) (if neg then -(nearN f mode neg m : Int) else nearN f mode neg m) := by
  have ho := one_pos f
  have hd := Nat.div_add_mod' m (one f)
  have hl := Nat.mod_lt m ho
  generalize hq : m / one f = q at *
  generalize hr : m % one f = r at *
  have key : nearN f mode neg m = q + if roundsUp mode neg q r (one f) then 1 else 0 := by rw [nearN, hq, hr]
  rw [key]
  have em : (m : Int) = q * one f + r := by rw [← hd]; push_cast; rfl
  have hmul : (0 : Int) ≤ q * one f := Int.mul_nonneg (by omega) (by omega)
  have hmul1 : ((q : Int) + 1) * one f = q * one f + one f := by ring
  have hnn : ∀ a : Int, -a * (one f : Int) = -(a * one f) := fun a => Int.neg_mul _ _
  cases hc : roundsUp mode neg q r (one f)
  all_goals
    simp only [Bool.false_eq_true, if_false, if_true, Nat.add_zero]
    cases neg <;> cases mode <;> simp only [Bool.false_eq_true, if_false, if_true, Chosen, hnn, Int.natCast_add, Nat.cast_add, Nat.cast_one, hmul1] at *
  all_goals simp [roundsUp] at hc
  all_goals rw [em]
  all_goals generalize hQ : (q : Int) * one f = Q at *
  · rw [show Q - (Q + r) = -(r : Int) by ring, abs_neg, abs_of_nonneg (by omega)]
    constructor
    · omega
    · intro h; have := hc.2 (by omega); omega
  · omega
  · omega
  · rw [abs_of_nonneg hmul, abs_of_nonneg (by omega)]
    refine ⟨by omega, by omega, Int.mul_nonneg (by omega) (by omega)⟩
  · rw [show -Q - -(Q + r) = (r : Int) by ring, abs_of_nonneg (by omega)]
    constructor
    · omega
    · intro h; have := hc.2 (by omega); omega
  · omega
  · omega
  · rw [abs_neg, abs_neg, abs_of_nonneg hmul, abs_of_nonneg (by omega)]
    refine ⟨by omega, by omega, ?_⟩
    rw [Int.neg_mul_neg]; exact Int.mul_nonneg (by omega) (by omega)
  · rw [show Q + one f - (Q + r) = (one f - r : Int) by ring, abs_of_nonneg (by omega)]
    constructor
    · rcases hc with h | h <;> omega
    · intro h; rcases hc with h' | h' <;> omega
  · omega
  · rw [show -(Q + one f) - -(Q + r) = -(one f - r : Int) by ring, abs_neg, abs_of_nonneg (by omega)]
    constructor
    · rcases hc with h | h <;> omega
    · intro h; rcases hc with h' | h' <;> omega
  · omega

theorem floor_same (hf : f.Ok) (h : ¬Finite f u) : floor f mode u = u ∧ ceil f mode u = u ∧ floorf f u = u ∧ ceilf f u = u ∧ round f mode u = u ∧ rint f mode u = u := by
  have := hf.emax_eq
  have := hf.bias_big
  unfold Finite at h
  have hc : f.bias + f.mb ≤ ex f u := by omega
  rw [floor, if_pos (Or.inl hc), ceil, if_pos (Or.inl hc), floorf, if_pos hc, ceilf, if_pos hc, round, if_pos hc, rint, if_pos hc]
  exact ⟨rfl, rfl, rfl, rfl, rfl, rfl⟩

/-- rint and nearbyint: the integer that the rounding mode chooses. -/
theorem rint_spec (hf : f.Ok) (hu : u < 2 ^ f.width) (hfin : Finite f u) :
    ∃ n, Result f u (rint f mode u) (n * one f) ∧ Chosen f mode (val f u) n := by
  have ho := one_pos f
  have hs2 := sgn_lt hu
  unfold rint
  simp only
  by_cases h : f.bias + f.mb ≤ ex f u
  · rw [if_pos h]
    obtain ⟨n, hn⟩ := whole_of_ex hf (u := u) h
    obtain ⟨k, hk⟩ := val_whole hn
    refine ⟨k, hk ▸ result_self hu hfin, ?_⟩
    rw [hk]
    cases mode <;> simp only [Chosen]
    · rw [Int.sub_self]; simp; omega
    · omega
    · omega
    · refine ⟨Int.le_refl _, by omega, ?_⟩
      rw [← Int.mul_assoc]
      exact Int.mul_nonneg (mul_self_nonneg k) (by omega)
  rw [if_neg h]
  have h2 : ex f u < f.bias + f.mb := by omega
  have hl := units_lt_toint hf h2
  have hn := near_val (mode := mode) hf hu h2
  have hp : 4 ≤ 2 ^ f.mb := two_le hf
  have hq : 2 ^ (f.mb + 1) = 2 * 2 ^ f.mb := by rw [Nat.pow_succ']
  by_cases hs : sgn f u = 1
  · have hc := chosen_nearN (f := f) (mode := mode) (m := units f u) (neg := true)
    have hle := nearN_le (mode := mode) (neg := true) hl
    rw [if_pos hs] at hn
    refine ⟨-(nearN f mode true (units f u) : Int), ?_, by rw [val, if_pos hs]; exact hc⟩
    have hn' : (near f mode u).val = -(nearN f mode true (units f u) : Int) * one f := by rw [hn, Int.neg_mul]
    by_cases hz : (near f mode u).val = 0
    · rw [if_pos hz, if_pos hs, ← hn', hz]
      have h0 := zero_result hf hu
      rw [hs] at h0
      exact h0
    · rw [if_neg hz]
      have hne : nearN f mode true (units f u) ≠ 0 := by
        intro hc0; rw [hn', hc0] at hz; simp at hz
      exact int_result hf hu hn' (by omega) (by omega) (by omega)
  · have hc := chosen_nearN (f := f) (mode := mode) (m := units f u) (neg := false)
    have hle := nearN_le (mode := mode) (neg := false) hl
    rw [if_neg hs] at hn
    refine ⟨(nearN f mode false (units f u) : Int), ?_, by rw [val, if_neg hs]; exact hc⟩
    by_cases hz : (near f mode u).val = 0
    · rw [if_pos hz, if_neg hs, ← hn, hz]
      have h0 := zero_result hf hu
      rw [show sgn f u = 0 by omega] at h0
      exact h0
    · rw [if_neg hz]
      have hne : nearN f mode false (units f u) ≠ 0 := by
        intro hc0; rw [hn, hc0] at hz; simp at hz
      exact int_result hf hu hn (by omega) (by omega) (by omega)

/-! ### modf -/

theorem and_sign (hu : u < 2 ^ f.width) : u &&& 2 ^ (f.width - 1) = pack f (sgn f u) 0 0 := by
  have h := and_not_mask (k := f.width - 1) (by omega) hu
  have e : 2 ^ f.width - 1 - (2 ^ (f.width - 1) - 1) = 2 ^ (f.width - 1) := by
    have h1 : 2 ^ f.width = 2 ^ (f.width - 1) * 2 := by rw [← Nat.pow_succ]; rfl
    have : 0 < 2 ^ (f.width - 1) := by positivity
    omega
  rw [e] at h
  rw [h, sgn_mask hu]

theorem frac_nonzero : u * 2 ^ (f.eb + 1) % 2 ^ f.width ≠ 0 ↔ man f u ≠ 0 := by
  have e : 2 ^ f.width = 2 ^ f.mb * 2 ^ (f.eb + 1) := by rw [Fmt.width, ← Nat.pow_add]; congr 1
  have hp : 0 < 2 ^ (f.eb + 1) := by positivity
  rw [e, Nat.mul_mod_mul_right, man]
  constructor
  · intro h hc; rw [hc, Nat.zero_mul] at h; omega
  · intro h hc
    rcases Nat.mul_eq_zero.1 hc with h' | h' <;> omega

/-- modf: the integer part and the rest, both with the sign of the argument. The subtraction is exact. -/
theorem modf_spec (hf : f.Ok) (hu : u < 2 ^ f.width) (hfin : Finite f u) :
    Result f u (modf f mode u).1 ((val f u).tdiv (one f) * one f) ∧
    Result f u (modf f mode u).2 (val f u - (val f u).tdiv (one f) * one f) := by
  have ho := one_pos f
  have hB := hf.bias_big
  have hmb := hf.mb2
  have hs2 := sgn_lt hu
  have h0 := zero_result hf hu
  have hself := result_self hu hfin
  unfold modf
  simp only
  rw [and_sign hu]
  by_cases h : f.bias + f.mb ≤ ex f u
  · rw [if_pos h, if_neg (fun hc => hfin hc.1)]
    obtain ⟨n, hn⟩ := whole_of_ex hf (u := u) h
    obtain ⟨k, hk⟩ := val_whole hn
    rw [tdiv_whole hk, Int.sub_self]
    exact ⟨hself, h0⟩
  rw [if_neg h]
  by_cases h1 : ex f u < f.bias
  · rw [if_pos h1]
    have hz : (val f u).tdiv (one f) = 0 := by
      have := small_tdiv hf h1
      unfold val
      split
      · rw [Int.neg_tdiv, ← Int.ofNat_tdiv, Nat.div_eq_of_lt this]; rfl
      · rw [← Int.ofNat_tdiv, Nat.div_eq_of_lt this]; rfl
    rw [hz, Int.zero_mul, Int.sub_zero]
    exact ⟨h0, hself⟩
  rw [if_neg h1]
  have h2 : ex f u < f.bias + f.mb := by omega
  have hc := cleared hf hu (by omega) h2
  simp only at hc
  have hw : f.width - (f.eb + 1) = f.mb := by unfold Fmt.width; omega
  rw [ones_shift (by unfold Fmt.width; omega), hw, mask_eq hf (by omega) h2, Nat.and_two_pow_sub_one_eq_mod, inv, and_not_mask (by unfold Fmt.width; omega) hu]
  by_cases hz : u % 2 ^ (f.mb - (ex f u - f.bias)) = 0
  · rw [if_pos hz]
    have hc1 := hc.1
    rw [clear_same hz] at hc1
    have hv := hc1.value
    rw [← hv, Int.sub_self]
    exact ⟨hself, h0⟩
  rw [if_neg hz]
  refine ⟨hc.1, ?_⟩
  generalize hi : u / 2 ^ (f.mb - (ex f u - f.bias)) * 2 ^ (f.mb - (ex f u - f.bias)) = i at *
  have hv := hc.1.value
  have hne : units f u % one f ≠ 0 := fun hcc => hz (hc.2.2.2 hcc)
  have hd := Nat.div_add_mod' (units f u) (one f)
  have hl := Nat.mod_lt (units f u) ho
  have hz2 : (val f u - val f i).natAbs = units f u % one f := by
    rw [val, val, hc.1.sign, hc.2.1]
    split <;> omega
  have hrep : Rep f (units f u % one f) := by
    refine ⟨ex f u - 1, ?_, ?_⟩
    · refine (Nat.dvd_mod_iff ?_).2 ?_
      · rw [one]; exact Nat.pow_dvd_pow _ (by omega)
      · unfold units; rw [if_neg (by omega)]; exact Nat.dvd_mul_left _ _
    · refine Nat.le_trans (Nat.le_of_lt hl) ?_
      rw [one]; exact Nat.pow_le_pow_right (by omega) (by omega)
  have hsub : (fsub f mode (dec f u) (dec f i)).val = val f u - val f i := by
    rw [fsub_exact, dec_val, dec_val]
    rw [dec_val, dec_val, hz2]; exact hrep
  have hlt : units f u % one f < 2 ^ (f.mb + 2 * f.bias) := by
    refine Nat.lt_of_lt_of_le hl ?_
    rw [one]; exact Nat.pow_le_pow_right (by omega) (by omega)
  obtain ⟨a1, a2, a3, a4⟩ := enc_val hf hsub (by omega) (by rw [hz2]; exact hrep) (by rw [hz2]; exact hlt)
  refine ⟨a1, a2, ?_, by rw [a3, hv]⟩
  rw [a4, val, val, hc.1.sign, hc.2.1]
  by_cases hs : sgn f u = 1
  · rw [if_pos hs, if_pos hs, if_pos (by omega), hs]
  · rw [if_neg hs, if_neg hs, if_neg (by omega)]; omega

/-- The integer part of an infinity is the infinity, the rest is zero; both parts of a NaN are the NaN. -/
theorem modf_special (hf : f.Ok) (hu : u < 2 ^ f.width) :
    (IsInf f u → modf f mode u = (u, pack f (sgn f u) 0 0)) ∧ (IsNan f u → modf f mode u = (u, u)) := by
  have hE := hf.emax_eq
  have hB := hf.bias_big
  unfold IsInf IsNan modf
  simp only
  rw [and_sign hu]
  constructor
  · intro h
    rw [if_pos (by omega), if_neg (fun hc => frac_nonzero.1 hc.2 h.2)]
  · intro h
    rw [if_pos (by omega), if_pos ⟨h.1, frac_nonzero.2 h.2⟩]

/-! ### Conversions to integers -/

theorem toInteger_of {bits r : Nat} {n : Int} (h : Result f u r (n * one f)) :
    toInteger f bits r = if -2 ^ (bits - 1) ≤ n ∧ n < 2 ^ (bits - 1) then .ok n else .ub := by
  have ho := one_pos f
  unfold toInteger
  rw [if_neg h.fin, dec_val, h.value, Int.mul_tdiv_cancel _ (by omega)]

/-- lrint and llrint: the integer that the rounding mode chooses, if the type has it. -/
theorem lrint_spec {bits : Nat} (hf : f.Ok) (hu : u < 2 ^ f.width) (hfin : Finite f u) :
    ∃ n, Chosen f mode (val f u) n ∧ lrint f bits mode u = if -2 ^ (bits - 1) ≤ n ∧ n < 2 ^ (bits - 1) then .ok n else .ub := by
  obtain ⟨n, h1, h2⟩ := rint_spec (mode := mode) hf hu hfin
  exact ⟨n, h2, toInteger_of h1⟩

/-- lround and llround: the nearest integer, halves away from zero, if the type has it. -/
theorem lround_spec {bits : Nat} (hf : f.Ok) (hu : u < 2 ^ f.width) (hfin : Finite f u) :
    ∃ n, NearestAway f (val f u) n ∧ lround f bits mode u = if -2 ^ (bits - 1) ≤ n ∧ n < 2 ^ (bits - 1) then .ok n else .ub := by
  obtain ⟨n, h1, h2⟩ := round_spec (mode := mode) hf hu hfin
  exact ⟨n, h2, toInteger_of h1⟩

/-- The specifications determine the integers. -/
theorem chosen_unique {z n m : Int} (h1 : Chosen f mode z n) (h2 : Chosen f mode z m) : n = m := by
  have ho := one_pos f
  have step : ∀ a b : Int, a * (one f : Int) < b * one f + one f → a ≤ b := by
    intro a b h
    by_contra hc
    have : (b + 1) * (one f : Int) ≤ a * one f := Int.mul_le_mul_of_nonneg_right (by omega) (by omega)
    rw [Int.add_mul, Int.one_mul] at this
    omega
  cases mode <;> simp only [Chosen] at h1 h2
  · obtain ⟨a1, a2⟩ := h1
    obtain ⟨b1, b2⟩ := h2
    have key : ∀ a b : Int, 2 * |a * (one f : Int) - z| ≤ one f → 2 * |b * (one f : Int) - z| ≤ one f →
        (2 * |a * (one f : Int) - z| = one f → a % 2 = 0) → (2 * |b * (one f : Int) - z| = one f → b % 2 = 0) → a ≤ b := by
      intro a b a1 b1 a2 b2
      by_contra hc
      have h : (b + 1) * (one f : Int) ≤ a * one f := Int.mul_le_mul_of_nonneg_right (by omega) (by omega)
      rw [Int.add_mul, Int.one_mul] at h
      have ha := le_abs_self (a * (one f : Int) - z)
      have hb := neg_abs_le (b * (one f : Int) - z)
      have ea := a2 (by omega)
      have eb := b2 (by omega)
      have : (b + 2) * (one f : Int) ≤ a * one f := Int.mul_le_mul_of_nonneg_right (by omega) (by omega)
      rw [Int.add_mul] at this
      omega
    have := key n m a1 b1 a2 b2
    have := key m n b1 a1 b2 a2
    omega
  · have := step n m (by omega)
    have := step m n (by omega)
    omega
  · have := step n m (by omega)
    have := step m n (by omega)
    omega
  · obtain ⟨a1, a2, a3⟩ := h1
    obtain ⟨b1, b2, b3⟩ := h2
    have ab : ∀ a : Int, |a * (one f : Int)| = |a| * one f := by
      intro a
      rcases abs_cases a with ⟨e, h⟩ | ⟨e, h⟩
      · rw [e]; exact abs_of_nonneg (Int.mul_nonneg h (by omega))
      · rw [e, Int.neg_mul]
        refine abs_of_nonpos ?_
        have : 0 ≤ -a * (one f : Int) := Int.mul_nonneg (by omega) (by omega)
        rw [Int.neg_mul] at this
        omega
    rw [ab] at a1 a2 b1 b2
    have h1 := step |n| |m| (by omega)
    have h2 := step |m| |n| (by omega)
    have heq : |n| = |m| := by omega
    rcases abs_eq_abs.1 heq with h | h
    · exact h
    · by_contra hne
      have hn0 : n ≠ 0 := by intro hc; rw [hc] at h heq; simp at heq; omega
      have hz : z = 0 := by
        rw [h] at a3
        have : 0 ≤ -(m * z) := by rw [← Int.neg_mul]; exact a3
        have h0 : m * z = 0 := by omega
        rcases Int.mul_eq_zero.1 h0 with h' | h'
        · omega
        · exact h'
      rw [hz] at a1
      simp at a1
      have : 0 < |n| := abs_pos.2 hn0
      have : 0 < |n| * (one f : Int) := Int.mul_pos this (by omega)
      omega

end

/-! ## Cases that meet the hypotheses -/

/-- -2.5: floor is -3, ceil is -2, round is -3, rint to the nearest is -2; and the same for -2.5f. -/
example : val double 0xC004000000000000 = -5 * (one double / 2 : Nat) ∧ Finite double 0xC004000000000000 ∧
    floor double .up 0xC004000000000000 = 0xC008000000000000 ∧ ceil double .down 0xC004000000000000 = 0xC000000000000000 ∧
    round double .zero 0xC004000000000000 = 0xC008000000000000 ∧ rint double .nearest 0xC004000000000000 = 0xC000000000000000 ∧
    trunc double 0xC004000000000000 = 0xC000000000000000 ∧ modf double .up 0xC004000000000000 = (0xC000000000000000, 0xBFE0000000000000) ∧
    lround double 64 .up 0xC004000000000000 = .ok (-3) ∧ floorf float 0xC0200000 = 0xC0400000 ∧ ceilf float 0xC0200000 = 0xC0000000 := by
  refine ⟨by decide +kernel, by unfold Finite; decide +kernel, by decide +kernel, by decide +kernel, by decide +kernel, by decide +kernel, by decide +kernel,
    by decide +kernel, by decide +kernel, by decide +kernel, by decide +kernel⟩

/-- The carry into the exponent: floorf(-1.5 + 2^-23...) of a number just above -2 is -2. -/
example : floorf float 0xBFFFFFFF = 0xC0000000 ∧ ceilf float 0x3FFFFFFF = 0x40000000 ∧ ceil double .nearest 0xBFE0000000000000 = 0x8000000000000000 := by
  refine ⟨by decide +kernel, by decide +kernel, by decide +kernel⟩

end Mlibc.Math
