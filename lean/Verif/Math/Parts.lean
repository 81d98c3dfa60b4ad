import Verif.Math.Scale

/-
options/ansi/musl-generic-math: frexp, ilogb, logb, significand, nextafter, fmax, fmin, fdim, fabs, copysign, __fpclassify, __signbit, finite, and their variants for float.
-/
namespace Mlibc.Math

/-! ## The model -/

/-- `fpclassify`, with the numbers of math.h L53-L57. __fpclassify.c L4-L11, __fpclassifyf.c L4-L11 -/
def fpclassify (f : Fmt) (u : Nat) : Nat :=
  let e := (u >>> f.mb) &&& (2 ^ f.eb - 1)
  if e = 0 then (if (u <<< 1) % 2 ^ f.width ≠ 0 then 8 else 16)
  else if e = 2 ^ f.eb - 1 then (if (u <<< (f.eb + 1)) % 2 ^ f.width ≠ 0 then 2 else 1)
  else 4

/-- `isnan`. math.h L72 -/
def isnan (f : Fmt) (u : Nat) : Bool := decide (fpclassify f u = 2)
/-- `isfinite`. math.h L71 -/
def isfinite (f : Fmt) (u : Nat) : Bool := decide (fpclassify f u &&& (4 ||| 8 ||| 16) ≠ 0)
/-- `signbit`. __signbit.c L4-L11 -/
def signbit (f : Fmt) (u : Nat) : Nat := u >>> (f.width - 1)

/-- `fabs`. fabs.c L4-L9 -/
def fabs (f : Fmt) (u : Nat) : Nat := u &&& (2 ^ f.width - 1) / 2
/-- `copysign`. copysign.c L3-L8 -/
def copysign (f : Fmt) (x y : Nat) : Nat := (x &&& (2 ^ f.width - 1) / 2) ||| (y &&& 1 <<< (f.width - 1))

/-- The operator < for numbers that are not NaN; the magnitude of infinity is above all others. fmax.c L12 -/
def lt (f : Fmt) (x y : Nat) : Bool := decide (val f x < val f y)

/-- `fmax`. fmax.c L3-L13 -/
def fmax (f : Fmt) (x y : Nat) : Nat :=
  if isnan f x then y
  else if isnan f y then x
  else if signbit f x ≠ signbit f y then (if signbit f x ≠ 0 then y else x)
  else if lt f x y then y else x

/-- `fmin`. fmin.c L3-L13 -/
def fmin (f : Fmt) (x y : Nat) : Nat :=
  if isnan f x then y
  else if isnan f y then x
  else if signbit f x ≠ signbit f y then (if signbit f x ≠ 0 then x else y)
  else if lt f x y then x else y

/-- The operator - for numbers that are not NaN: arithmetic of the machine. fdim.c L9 -/
def osub (f : Fmt) (mode : Mode) (x y : Nat) : Out :=
  if ex f x = f.emax then (if ex f y = f.emax ∧ sgn f x = sgn f y then .nan else .bits x)
  else if ex f y = f.emax then .bits (y ^^^ 2 ^ (f.width - 1))
  else if val f x = val f y then .bits (pack f (if sgn f x = sgn f y then (if mode = .down then 1 else 0) else sgn f x) 0 0)
  else .bits (roundTo f mode (decide (val f x < val f y)) (val f x - val f y).natAbs 0)

/-- `fdim`. fdim.c L3-L10 -/
def fdim (f : Fmt) (mode : Mode) (x y : Nat) : Out :=
  if isnan f x then .bits x
  else if isnan f y then .bits y
  else if lt f y x then osub f mode x y else .bits 0

/-- `nextafter`. nextafter.c L3-L31, nextafterf.c L3-L30 -/
def nextafter (f : Fmt) (x y : Nat) : Out :=
  if isnan f x ∨ isnan f y then .nan
  else if x = y then .bits y
  else
    let ax := x &&& (2 ^ f.width - 1) / 2
    let ay := y &&& (2 ^ f.width - 1) / 2
    if ax = 0 then
      if ay = 0 then .bits y else .bits ((y &&& 1 <<< (f.width - 1)) ||| 1)
    else if ax > ay ∨ (x ^^^ y) &&& 1 <<< (f.width - 1) ≠ 0 then .bits (x - 1)
    else .bits (x + 1)

/-- `frexp`: the fraction and `*e`; `none` if the recursion does not end. `x*0x1p64` is, in frexpf, a product of doubles which is then made a float again; that too is
exact. frexp.c L4-L23, frexpf.c L4-L23 -/
def frexp (f : Fmt) (mode : Mode) : Nat → Nat → Option (Out × Int)
  | 0, _ => none
  | n + 1, x =>
    let ee := (x >>> f.mb) &&& (2 ^ f.eb - 1)
    if ee = 0 then
      if units f x ≠ 0 then
        match fmul f mode x (pack f 0 (f.bias + 64) 0) with
        | .nan => some (.nan, 0)
        | .bits y => (frexp f mode n y).map fun r => (r.1, r.2 - 64)
      else some (.bits x, 0)
    else if ee = 2 ^ f.eb - 1 then some (.bits x, 0)
    else some (.bits ((x &&& pack f 1 0 (2 ^ f.mb - 1)) ||| pack f 0 (f.bias - 1) 0), (ee : Int) - (f.bias - 1 : Nat))

/-- `ilogb`; `none` if the loop does not end. ilogb.c L4-L26, ilogbf.c L4-L26 -/
def ilogb (f : Fmt) (x : Nat) : Option Int :=
  let e := (x >>> f.mb) &&& (2 ^ f.eb - 1)
  if e = 0 then
    let i := (x <<< (f.eb + 1)) % 2 ^ f.width
    if i = 0 then some (-2147483648) else normLoop f f.width i (-f.bias)
  else if e = 2 ^ f.eb - 1 then some (if (x <<< (f.eb + 1)) % 2 ^ f.width ≠ 0 then -2147483648 else 2147483647)
  else some ((e : Int) - f.bias)

/-- `logb`. `-1/(x*x)` of a zero is -1/+0, negative infinity. logb.c L10-L17 -/
def logb (f : Fmt) (mode : Mode) (x : Nat) : Option Out :=
  if ¬isfinite f x then some (fmul f mode x x)
  else if units f x = 0 then some (.bits (pack f 1 f.emax 0))
  else (ilogb f x).map fun k => .bits (roundTo f mode (decide (k < 0)) (k.natAbs * one f) 0)

/-- `significand`. The negation of INT_MIN overflows. significand.c L4-L7 -/
def significand (f : Fmt) (mode : Mode) (x : Nat) : Option (Res Out) :=
  (ilogb f x).map fun k => if k = -2147483648 then .ub else .ok (scalbn f mode x (-k))

section
variable {f : Fmt} {mode : Mode}

/-! ## Classification -/

theorem shl_frac (u : Nat) : (u <<< (f.eb + 1)) % 2 ^ f.width = man f u * 2 ^ (f.eb + 1) := by
  have hw : 2 ^ f.width = 2 ^ f.mb * 2 ^ (f.eb + 1) := by rw [Fmt.width, ← Nat.pow_add]; congr 1
  rw [Nat.shiftLeft_eq, hw, Nat.mul_mod_mul_right]; rfl

theorem shl_frac_ne (u : Nat) : (u <<< (f.eb + 1)) % 2 ^ f.width ≠ 0 ↔ man f u ≠ 0 := by
  rw [shl_frac]
  have : 0 < 2 ^ (f.eb + 1) := by positivity
  constructor
  · intro h hc; exact h (by rw [hc, Nat.zero_mul])
  · intro h; exact Nat.mul_ne_zero h (by omega)

theorem units_sub {u : Nat} (h : ex f u = 0) : units f u = man f u := by rw [units, if_pos h]

/-- **fpclassify** tells the five kinds of numbers apart. -/
theorem fpclassify_spec (hf : f.Ok) {u : Nat} (hu : u < 2 ^ f.width) :
    (fpclassify f u = 2 ↔ IsNan f u) ∧ (fpclassify f u = 1 ↔ IsInf f u) ∧
    (fpclassify f u = 4 ↔ Finite f u ∧ 2 ^ f.mb ≤ units f u) ∧
    (fpclassify f u = 8 ↔ Finite f u ∧ 0 < units f u ∧ units f u < 2 ^ f.mb) ∧
    (fpclassify f u = 16 ↔ Finite f u ∧ units f u = 0) := by
  have hE := hf.emax_eq
  have hm := man_lt (f := f) u
  have hp : 0 < 2 ^ f.mb := by positivity
  have hz := abs_zero hu
  have hfr := shl_frac_ne (f := f) u
  have hex : (u >>> f.mb) &&& (2 ^ f.eb - 1) = ex f u := rfl
  unfold fpclassify
  simp only [hex, IsNan, IsInf, Finite]
  rw [show (2 ^ f.eb - 1) = f.emax from rfl]
  by_cases h0 : ex f u = 0
  · have hu := units_sub h0
    have hne : ¬(0 = f.emax) := by omega
    rw [if_pos h0]
    by_cases h1 : (u <<< 1) % 2 ^ f.width = 0
    · have := hz.1 h1
      simp [h1, h0, hne, this]
    · have : units f u ≠ 0 := fun h => h1 (hz.2 h)
      have hlt : units f u < 2 ^ f.mb := by omega
      have hng : ¬2 ^ f.mb ≤ units f u := by omega
      have hpos : 0 < units f u := by omega
      simp [h1, h0, hne, this, hlt, hng, hpos]
  · rw [if_neg h0]
    have hge : 2 ^ f.mb ≤ units f u := units_ge_of_ex (k := 0) (by omega)
    by_cases h1 : ex f u = f.emax
    · rw [if_pos h1]
      by_cases h2 : man f u = 0
      · simp [h1, h2, hfr]
      · simp [h1, h2, hfr]
    · rw [if_neg h1]
      simp [h1]
      omega

theorem isnan_iff (hf : f.Ok) {u : Nat} (hu : u < 2 ^ f.width) : isnan f u = true ↔ IsNan f u := by
  rw [isnan, decide_eq_true_eq]; exact (fpclassify_spec hf hu).1

theorem isfinite_iff (hf : f.Ok) {u : Nat} (hu : u < 2 ^ f.width) : isfinite f u = true ↔ Finite f u := by
  obtain ⟨h1, h2, h3, h4, h5⟩ := fpclassify_spec hf hu
  rw [isfinite, decide_eq_true_eq]
  by_cases hfin : Finite f u
  · refine ⟨fun _ => hfin, fun _ => ?_⟩
    rcases Nat.lt_or_ge (units f u) (2 ^ f.mb) with h | h
    · rcases Nat.eq_zero_or_pos (units f u) with h0 | h0
      · rw [h5.2 ⟨hfin, h0⟩]; decide
      · rw [h4.2 ⟨hfin, h0, h⟩]; decide
    · rw [h3.2 ⟨hfin, h⟩]; decide
  · refine ⟨fun h => absurd ?_ h, fun h => absurd h hfin⟩
    by_cases hn : IsNan f u
    · rw [h1.2 hn]; decide
    · rw [h2.2 ((inf_or_finite hn).resolve_right hfin)]; decide

theorem signbit_eq (u : Nat) : signbit f u = sgn f u := rfl

/-- 1, -0, the smallest number, an infinity and a NaN. -/
example : fpclassify double 0x3ff0000000000000 = 4 ∧ fpclassify double 0x8000000000000000 = 16 ∧ fpclassify double 1 = 8 ∧ fpclassify double 0x7ff0000000000000 = 1 ∧
    fpclassify double 0xfff0000000000001 = 2 := by decide +kernel

/-! ## Bits -/

theorem testBit_pack {s e m : Nat} (he : e < 2 ^ f.eb) (hm : m < 2 ^ f.mb) (i : Nat) :
    (pack f s e m).testBit i = if i < f.mb then m.testBit i else if i - f.mb < f.eb then e.testBit (i - f.mb) else s.testBit (i - f.mb - f.eb) := by
  rw [pack, Nat.mul_comm, Nat.testBit_two_pow_mul_add _ hm, Nat.mul_comm, Nat.testBit_two_pow_mul_add _ he]

theorem and_pack {s e m s' e' m' : Nat} (he : e < 2 ^ f.eb) (hm : m < 2 ^ f.mb) (he' : e' < 2 ^ f.eb) (hm' : m' < 2 ^ f.mb) :
    pack f s e m &&& pack f s' e' m' = pack f (s &&& s') (e &&& e') (m &&& m') := by
  apply Nat.eq_of_testBit_eq
  intro i
  rw [Nat.testBit_and, testBit_pack he hm, testBit_pack he' hm', testBit_pack (Nat.and_lt_two_pow _ he') (Nat.and_lt_two_pow _ hm')]
  split
  · rw [Nat.testBit_and]
  · split <;> rw [Nat.testBit_and]

theorem or_pack {s e m s' e' m' : Nat} (he : e < 2 ^ f.eb) (hm : m < 2 ^ f.mb) (he' : e' < 2 ^ f.eb) (hm' : m' < 2 ^ f.mb) :
    pack f s e m ||| pack f s' e' m' = pack f (s ||| s') (e ||| e') (m ||| m') := by
  apply Nat.eq_of_testBit_eq
  intro i
  rw [Nat.testBit_or, testBit_pack he hm, testBit_pack he' hm', testBit_pack (Nat.or_lt_two_pow he he') (Nat.or_lt_two_pow hm hm')]
  split
  · rw [Nat.testBit_or]
  · split <;> rw [Nat.testBit_or]

/-- The mask without the sign. -/
theorem low_mask (f : Fmt) : (2 ^ f.width - 1) / 2 = 2 ^ (f.mb + f.eb) - 1 := by
  have := two_pow_width f
  have h : f.width - 1 = f.mb + f.eb := by unfold Fmt.width; omega
  rw [h] at this
  omega

theorem and_low (u : Nat) : u &&& (2 ^ f.width - 1) / 2 = code f u := by
  rw [low_mask, Nat.and_two_pow_sub_one_eq_mod]
  conv => lhs; rw [← pack_fields (f := f) u]
  have h1 : pack f (sgn f u) (ex f u) (man f u) = code f u + 2 ^ (f.mb + f.eb) * sgn f u := by rw [pack, code, Nat.pow_add]; ring
  rw [h1, Nat.add_mul_mod_self_left, Nat.mod_eq_of_lt (code_lt u)]

theorem bits_split (u : Nat) : u = sgn f u * 2 ^ (f.mb + f.eb) + code f u := by
  conv => lhs; rw [← pack_fields (f := f) u]
  rw [pack, code, Nat.pow_add]; ring

theorem code_pack (u : Nat) : code f u = pack f 0 (ex f u) (man f u) := by rw [pack, code, Nat.zero_mul, Nat.zero_add]

/-- **fabs** clears the sign and nothing else; also of zeros, infinities and NaNs. -/
theorem fabs_spec (u : Nat) : fabs f u < 2 ^ (f.width - 1) ∧ sgn f (fabs f u) = 0 ∧ ex f (fabs f u) = ex f u ∧ man f (fabs f u) = man f u := by
  have h1 := ex_lt (f := f) u
  have h2 := man_lt (f := f) u
  rw [fabs, and_low]
  refine ⟨by rw [show f.width - 1 = f.mb + f.eb by unfold Fmt.width; omega]; exact code_lt u, ?_⟩
  rw [code_pack]
  exact ⟨sgn_pack h1 h2, ex_pack h1 h2, man_pack h2⟩

theorem sign_bit {y : Nat} (hy : y < 2 ^ f.width) : y &&& 1 <<< (f.width - 1) = pack f (sgn f y) 0 0 := by
  rw [Nat.shiftLeft_eq, Nat.one_mul]; exact and_sign hy

/-- **copysign** takes the sign of `y` and the rest of `x`; also of zeros, infinities and NaNs. -/
theorem copysign_spec {x y : Nat} (hy : y < 2 ^ f.width) :
    copysign f x y < 2 ^ f.width ∧ sgn f (copysign f x y) = sgn f y ∧ ex f (copysign f x y) = ex f x ∧ man f (copysign f x y) = man f x := by
  have h1 := ex_lt (f := f) x
  have h2 := man_lt (f := f) x
  have hs := sgn_lt hy
  rw [copysign, and_low, sign_bit hy, code_pack, or_pack h1 h2 (by positivity) (by positivity)]
  simp only [Nat.or_zero, Nat.zero_or]
  exact ⟨pack_lt hs h1 h2, sgn_pack h1 h2, ex_pack h1 h2, man_pack h2⟩

example : fabs double 0xfff8000000000001 = 0x7ff8000000000001 ∧ copysign float 0x3f800000 0x80000000 = 0xbf800000 := by decide +kernel

/-! ## Order -/

/-- The bits as a signed number. -/
def scode (f : Fmt) (u : Nat) : Int := if sgn f u = 1 then -(code f u : Int) else code f u

theorem units_zero_code {u : Nat} : units f u = 0 ↔ code f u = 0 := by
  have h0 : code f 0 = 0 := (code_self (by positivity)).1
  have hu : units f 0 = 0 := by
    rw [units, show ex f 0 = 0 by rw [ex_eq]; simp, if_pos rfl]
    simp [man]
  have := code_pos_lt (f := f) (u := 0) (v := u)
  omega

/-- Numbers are ordered as their bits are. -/
theorem val_lt_iff {u v : Nat} : val f u < val f v ↔ scode f u < scode f v := by
  have h1 := code_pos_lt (f := f) (u := u) (v := v)
  have h2 := code_pos_lt (f := f) (u := v) (v := u)
  have h3 := units_zero_code (f := f) (u := u)
  have h4 := units_zero_code (f := f) (u := v)
  unfold val scode
  split <;> split <;> omega

theorem val_eq_iff {u v : Nat} : val f u = val f v ↔ scode f u = scode f v := by
  have h1 := val_lt_iff (f := f) (u := u) (v := v)
  have h2 := val_lt_iff (f := f) (u := v) (v := u)
  omega

/-- **fmax**: of two numbers the larger, where -0 is smaller than +0; a NaN counts as missing. -/
theorem fmax_spec (hf : f.Ok) {x y : Nat} (hx : x < 2 ^ f.width) (hy : y < 2 ^ f.width) :
    (IsNan f x → fmax f x y = y) ∧ (IsNan f y → ¬IsNan f x → fmax f x y = x) ∧
    (¬IsNan f x → ¬IsNan f y → (fmax f x y = x ∨ fmax f x y = y) ∧ val f x ≤ val f (fmax f x y) ∧ val f y ≤ val f (fmax f x y) ∧
      (val f x = val f y → sgn f (fmax f x y) = min (sgn f x) (sgn f y))) := by
  have sx := sgn_lt hx
  have sy := sgn_lt hy
  have nx := isnan_iff hf hx
  have ny := isnan_iff hf hy
  unfold fmax
  refine ⟨fun h => if_pos (nx.2 h), fun h h' => ?_, fun h h' => ?_⟩
  · rw [if_neg (fun hc => h' (nx.1 hc)), if_pos (ny.2 h)]
  · rw [if_neg (fun hc => h (nx.1 hc)), if_neg (fun hc => h' (ny.1 hc)), signbit_eq, signbit_eq]
    by_cases hs : sgn f x ≠ sgn f y
    · rw [if_pos hs]
      by_cases h1 : sgn f x ≠ 0
      · rw [if_pos h1]
        have : sgn f x = 1 := by omega
        have : sgn f y = 0 := by omega
        refine ⟨.inr rfl, ?_, le_refl _, fun _ => by omega⟩
        unfold val
        simp only [*]
        simp
      · rw [if_neg h1]
        have : sgn f x = 0 := by omega
        have : sgn f y = 1 := by omega
        refine ⟨.inl rfl, le_refl _, ?_, fun _ => by omega⟩
        unfold val
        simp only [*]
        simp
    · rw [if_neg hs]
      unfold lt
      by_cases hl : val f x < val f y
      · rw [if_pos (by simp [hl])]
        exact ⟨.inr rfl, by omega, le_refl _, fun h => by omega⟩
      · rw [if_neg (by simp [hl])]
        exact ⟨.inl rfl, le_refl _, by omega, fun h => by omega⟩

/-- **fmin**: of two numbers the smaller, where -0 is smaller than +0; a NaN counts as missing. -/
theorem fmin_spec (hf : f.Ok) {x y : Nat} (hx : x < 2 ^ f.width) (hy : y < 2 ^ f.width) :
    (IsNan f x → fmin f x y = y) ∧ (IsNan f y → ¬IsNan f x → fmin f x y = x) ∧
    (¬IsNan f x → ¬IsNan f y → (fmin f x y = x ∨ fmin f x y = y) ∧ val f (fmin f x y) ≤ val f x ∧ val f (fmin f x y) ≤ val f y ∧
      (val f x = val f y → sgn f (fmin f x y) = max (sgn f x) (sgn f y))) := by
  have sx := sgn_lt hx
  have sy := sgn_lt hy
  have nx := isnan_iff hf hx
  have ny := isnan_iff hf hy
  unfold fmin
  refine ⟨fun h => if_pos (nx.2 h), fun h h' => ?_, fun h h' => ?_⟩
  · rw [if_neg (fun hc => h' (nx.1 hc)), if_pos (ny.2 h)]
  · rw [if_neg (fun hc => h (nx.1 hc)), if_neg (fun hc => h' (ny.1 hc)), signbit_eq, signbit_eq]
    by_cases hs : sgn f x ≠ sgn f y
    · rw [if_pos hs]
      by_cases h1 : sgn f x ≠ 0
      · rw [if_pos h1]
        have : sgn f x = 1 := by omega
        have : sgn f y = 0 := by omega
        refine ⟨.inl rfl, le_refl _, ?_, fun _ => by omega⟩
        unfold val
        simp only [*]
        simp
      · rw [if_neg h1]
        have : sgn f x = 0 := by omega
        have : sgn f y = 1 := by omega
        refine ⟨.inr rfl, ?_, le_refl _, fun _ => by omega⟩
        unfold val
        simp only [*]
        simp
    · rw [if_neg hs]
      unfold lt
      by_cases hl : val f x < val f y
      · rw [if_pos (by simp [hl])]
        exact ⟨.inl rfl, le_refl _, by omega, fun h => by omega⟩
      · rw [if_neg (by simp [hl])]
        exact ⟨.inr rfl, by omega, le_refl _, fun h => by omega⟩

/-- max(-0, +0) = +0, max(1, -inf) = 1, min(NaN, 1) = 1. -/
example : fmax float 0x80000000 0 = 0 ∧ fmax float 0x3f800000 0xff800000 = 0x3f800000 ∧ fmin float 0x7fc00000 0x3f800000 = 0x3f800000 := by decide +kernel

/-! ## The next number -/

theorem fields_of {s c : Nat} (hc : c < 2 ^ (f.mb + f.eb)) : sgn f (s * 2 ^ (f.mb + f.eb) + c) = s ∧ code f (s * 2 ^ (f.mb + f.eb) + c) = c := by
  have hp : 0 < 2 ^ f.mb := by positivity
  have h1 : c / 2 ^ f.mb < 2 ^ f.eb := by
    rw [Nat.div_lt_iff_lt_mul hp, Nat.mul_comm, ← Nat.pow_add]; exact hc
  have h2 : c % 2 ^ f.mb < 2 ^ f.mb := Nat.mod_lt _ hp
  have h3 : s * 2 ^ (f.mb + f.eb) + c = pack f s (c / 2 ^ f.mb) (c % 2 ^ f.mb) := by
    have := Nat.div_add_mod' c (2 ^ f.mb)
    rw [pack, Nat.add_mul, Nat.add_assoc, this, Nat.pow_add]; ring
  rw [h3, code, sgn_pack h1 h2, ex_pack h1 h2, man_pack h2]
  exact ⟨rfl, Nat.div_add_mod' _ _⟩

theorem lt_of_fields {s c : Nat} (hs : s < 2) (hc : c < 2 ^ (f.mb + f.eb)) : s * 2 ^ (f.mb + f.eb) + c < 2 ^ f.width := by
  have h1 : 2 ^ f.width = 2 * 2 ^ (f.mb + f.eb) := by rw [Fmt.width, Nat.pow_succ]; ring
  have : s * 2 ^ (f.mb + f.eb) ≤ 1 * 2 ^ (f.mb + f.eb) := Nat.mul_le_mul_right _ (by omega)
  omega

/-- What `nextafter` is to return: the first number after `x` on the way to `y`, and its sign if it is zero. -/
structure Next (f : Fmt) (x y r : Nat) : Prop where
  lt : r < 2 ^ f.width
  nan : ¬IsNan f r
  up : val f x < val f y → val f x < val f r ∧ val f r ≤ val f y ∧ ∀ z, ¬IsNan f z → ¬(val f x < val f z ∧ val f z < val f r)
  down : val f y < val f x → val f r < val f x ∧ val f y ≤ val f r ∧ ∀ z, ¬IsNan f z → ¬(val f r < val f z ∧ val f z < val f x)
  zero : val f r = 0 → sgn f r = sgn f x

theorem next_of (hf : f.Ok) {x y r : Nat} (hr : r < 2 ^ f.width) (hx : ¬IsNan f x) (hy : ¬IsNan f y) (hne : scode f x ≠ scode f y)
    (h : (scode f x < scode f y → scode f r = scode f x + 1) ∧ (scode f y < scode f x → scode f r = scode f x - 1)) (hz : code f r = 0 → sgn f r = sgn f x) : Next f x y r := by
  refine ⟨hr, ?_, ?_, ?_, ?_⟩
  · rw [not_nan_code hf] at *
    unfold scode at *
    split at h <;> split at h <;> split at h <;> omega
  · intro hl
    rw [val_lt_iff] at hl
    have := h.1 hl
    simp only [← not_lt, val_lt_iff]
    exact ⟨by omega, by omega, fun z _ => by omega⟩
  · intro hl
    rw [val_lt_iff] at hl
    have := h.2 hl
    simp only [← not_lt, val_lt_iff]
    exact ⟨by omega, by omega, fun z _ => by omega⟩
  · intro h0
    refine hz (units_zero_code.1 ?_)
    unfold val at h0
    split at h0 <;> omega

theorem xor_sign {x y : Nat} (hx : x < 2 ^ f.width) (hy : y < 2 ^ f.width) : (x ^^^ y) &&& 1 <<< (f.width - 1) ≠ 0 ↔ sgn f x ≠ sgn f y := by
  rw [sign_bit (Nat.xor_lt_two_pow hx hy)]
  have h1 : sgn f (x ^^^ y) = sgn f x ^^^ sgn f y := by
    unfold sgn
    exact Nat.shiftRight_xor_distrib
  have sx := sgn_lt hx
  have sy := sgn_lt hy
  have hp : 0 < 2 ^ f.eb * 2 ^ f.mb := by positivity
  rw [h1, pack]
  rcases (show sgn f x = 0 ∨ sgn f x = 1 by omega) with h | h <;> rcases (show sgn f y = 0 ∨ sgn f y = 1 by omega) with h' | h' <;> rw [h, h'] <;> simp

/-- **nextafter** goes to the neighbour of `x` in the direction of `y`. -/
theorem nextafter_spec (hf : f.Ok) {x y : Nat} (hx : x < 2 ^ f.width) (hy : y < 2 ^ f.width) :
    (IsNan f x ∨ IsNan f y → nextafter f x y = .nan) ∧
    (¬IsNan f x → ¬IsNan f y → (val f x = val f y → nextafter f x y = .bits y) ∧
      (val f x ≠ val f y → ∃ r, nextafter f x y = .bits r ∧ Next f x y r)) := by
  have sx := sgn_lt hx
  have sy := sgn_lt hy
  have nx := isnan_iff hf hx
  have ny := isnan_iff hf hy
  have cx := code_lt (f := f) x
  have cy := code_lt (f := f) y
  have hp : 0 < 2 ^ f.mb := by positivity
  have hmb := hf.mb2
  unfold nextafter
  refine ⟨fun h => if_pos (by rw [nx, ny]; exact h), fun h1 h2 => ?_⟩
  rw [if_neg (by rw [nx, ny]; rintro (h | h); exact h1 h; exact h2 h), and_low, and_low]
  constructor
  · intro he
    by_cases hxy : x = y
    · rw [if_pos hxy]
    · rw [if_neg hxy]
      -- zeros of different sign
      have hs : sgn f x ≠ sgn f y := by
        intro hs
        refine hxy (bits_ext hf hx hy hs ?_)
        unfold val at he
        rw [hs] at he
        split at he <;> omega
      have h0 : code f x = 0 ∧ code f y = 0 := by
        rw [val_eq_iff] at he
        unfold scode at he
        split at he <;> split at he <;> omega
      simp only
      rw [if_pos h0.1, if_pos h0.2]
  · intro hne
    have hxy : x ≠ y := fun h => hne (by rw [h])
    rw [if_neg hxy]
    simp only
    have hnes := hne
    rw [ne_eq, val_eq_iff] at hnes
    by_cases h0 : code f x = 0
    · rw [if_pos h0]
      have hy0 : code f y ≠ 0 := by
        intro hc
        apply hnes
        unfold scode
        split <;> split <;> omega
      rw [if_neg hy0]
      refine ⟨_, rfl, ?_⟩
      have hr : (y &&& 1 <<< (f.width - 1)) ||| 1 = pack f (sgn f y) 0 1 := by
        rw [sign_bit hy]
        have h1m : 1 < 2 ^ f.mb := Nat.one_lt_two_pow (by omega)
        have : (1 : Nat) = pack f 0 0 1 := by simp [pack]
        conv => lhs; rhs; rw [this]
        rw [or_pack (by positivity) hp (by positivity) h1m]
        simp
      have h1m : 1 < 2 ^ f.mb := Nat.one_lt_two_pow (by omega)
      rw [hr]
      have g1 : sgn f (pack f (sgn f y) 0 1) = sgn f y := sgn_pack (by positivity) h1m
      have g2 : code f (pack f (sgn f y) 0 1) = 1 := by rw [code, ex_pack (by positivity) h1m, man_pack h1m]; simp
      refine next_of hf (pack_lt sy (by positivity) h1m) h1 h2 hnes ?_ (fun h => by omega)
      unfold scode at hnes ⊢
      rw [g1, g2, h0]
      split <;> split <;> omega
    · rw [if_neg h0]
      have hbx := bits_split (f := f) x
      have hH : 0 < 2 ^ (f.mb + f.eb) := by positivity
      by_cases hdir : code f x > code f y ∨ sgn f x ≠ sgn f y
      · rw [if_pos (hdir.imp id (xor_sign hx hy).2)]
        have hm1 : x - 1 = sgn f x * 2 ^ (f.mb + f.eb) + (code f x - 1) := by omega
        obtain ⟨f1, f2⟩ := fields_of (f := f) (s := sgn f x) (c := code f x - 1) (by omega)
        have f3 := lt_of_fields (f := f) (s := sgn f x) (c := code f x - 1) sx (by omega)
        rw [← hm1] at f1 f2 f3
        refine ⟨_, rfl, next_of hf f3 h1 h2 hnes ?_ (fun _ => f1)⟩
        unfold scode at hnes ⊢
        rw [f1, f2]
        split <;> split <;> omega
      · rw [if_neg (fun h => hdir (h.imp id (xor_sign hx hy).1))]
        have hs : sgn f x = sgn f y := by omega
        have hcl : code f x < code f y := by
          rcases Nat.lt_or_ge (code f x) (code f y) with h | h
          · exact h
          · exfalso
            apply hnes
            have : code f x = code f y := by omega
            unfold scode
            rw [hs, this]
        have hp1 : x + 1 = sgn f x * 2 ^ (f.mb + f.eb) + (code f x + 1) := by omega
        obtain ⟨f1, f2⟩ := fields_of (f := f) (s := sgn f x) (c := code f x + 1) (by omega)
        have f3 := lt_of_fields (f := f) (s := sgn f x) (c := code f x + 1) sx (by omega)
        rw [← hp1] at f1 f2 f3
        refine ⟨_, rfl, next_of hf f3 h1 h2 hnes ?_ (fun _ => f1)⟩
        unfold scode at hnes ⊢
        rw [f1, f2, ← hs]
        rw [← hs] at hnes
        split <;> omega

/-- From 1 down; from the smallest number to -0; from the largest to infinity. -/
example : nextafter double 0x3ff0000000000000 0 = .bits 0x3fefffffffffffff ∧ nextafter double 1 0x8000000000000000 = .bits 0 ∧
    nextafter float 0x7f7fffff 0x7f800000 = .bits 0x7f800000 := by decide +kernel

/-! ## The positive difference -/

/-- **fdim**: `x - y`, rounded once, if that is positive, otherwise +0; a NaN if either is one. -/
theorem fdim_spec (hf : f.Ok) {x y : Nat} (hx : x < 2 ^ f.width) (hy : y < 2 ^ f.width) :
    (IsNan f x ∨ IsNan f y → ∃ r, fdim f mode x y = .bits r ∧ IsNan f r) ∧
    (¬IsNan f x → ¬IsNan f y →
      (val f x ≤ val f y → fdim f mode x y = .bits 0) ∧
      (val f y < val f x → ∃ r, fdim f mode x y = .bits r ∧
        (Finite f x → Finite f y → Rounded f mode false (val f x - val f y).toNat 0 r) ∧
        (IsInf f x ∨ IsInf f y → IsInf f r ∧ sgn f r = 0))) := by
  have sx := sgn_lt hx
  have sy := sgn_lt hy
  have nx := isnan_iff hf hx
  have ny := isnan_iff hf hy
  unfold fdim
  constructor
  · intro h
    by_cases h1 : IsNan f x
    · rw [if_pos (nx.2 h1)]; exact ⟨_, rfl, h1⟩
    · rw [if_neg (fun hc => h1 (nx.1 hc)), if_pos (ny.2 (h.resolve_left h1))]; exact ⟨_, rfl, h.resolve_left h1⟩
  · intro h1 h2
    rw [if_neg (fun hc => h1 (nx.1 hc)), if_neg (fun hc => h2 (ny.1 hc))]
    unfold lt
    constructor
    · intro hle
      rw [if_neg (by simp; omega)]
    · intro hlt
      rw [if_pos (by simp [hlt])]
      unfold osub
      have iu : ∀ u, IsInf f u → units f u = 2 ^ (f.mb + 2 * f.bias) := fun u h => units_inf hf h
      have le : ∀ u, ¬IsNan f u → units f u ≤ 2 ^ (f.mb + 2 * f.bias) := fun u h => by
        rcases inf_or_finite h with h | h
        · rw [iu u h]
        · exact Nat.le_of_lt (finite_units_lt hf h)
      have hB : 0 < 2 ^ (f.mb + 2 * f.bias) := by positivity
      by_cases hix : ex f x = f.emax
      · have hinf : IsInf f x := ⟨hix, by_contra fun h => h1 ⟨hix, h⟩⟩
        have hxs : sgn f x = 0 := by
          by_contra hc
          have h3 : sgn f x = 1 := by omega
          have h4 := le y h2
          have h5 := iu x hinf
          unfold val at hlt
          rw [if_pos h3] at hlt
          split at hlt <;> omega
        rw [if_pos hix, if_neg]
        · exact ⟨_, rfl, fun h => absurd hix h, fun _ => ⟨hinf, hxs⟩⟩
        · rintro ⟨h3, h4⟩
          have hinfy : IsInf f y := ⟨h3, by_contra fun h => h2 ⟨h3, h⟩⟩
          have h5 := iu x hinf
          have h6 := iu y hinfy
          unfold val at hlt
          rw [h4] at hlt
          split at hlt <;> omega
      · rw [if_neg hix]
        by_cases hiy : ex f y = f.emax
        · have hinf : IsInf f y := ⟨hiy, by_contra fun h => h2 ⟨hiy, h⟩⟩
          rw [if_pos hiy]
          have hys : sgn f y = 1 := by
            by_contra hc
            have h4 := le x h1
            have h5 := iu y hinf
            unfold val at hlt
            rw [if_neg hc] at hlt
            split at hlt <;> omega
          have hyb : y = pack f 1 f.emax 0 := by
            conv => lhs; rw [← pack_fields (f := f) y, hinf.1, hinf.2, hys]
          have hfl : y ^^^ 2 ^ (f.width - 1) = pack f 0 f.emax 0 := by
            have h3 : y = 2 ^ (f.width - 1) * 1 + pack f 0 f.emax 0 := by
              conv => lhs; rw [hyb]
              rw [pack, pack, show f.width - 1 = f.mb + f.eb by unfold Fmt.width; omega, Nat.pow_add]; ring
            have h4 : pack f 0 f.emax 0 < 2 ^ (f.width - 1) := by
              rw [pack, show f.width - 1 = f.eb + f.mb by unfold Fmt.width; omega, Nat.pow_add]
              have := Nat.mul_lt_mul_of_pos_right (emax_lt f) (show 0 < 2 ^ f.mb by positivity)
              simpa using this
            apply Nat.eq_of_testBit_eq
            intro i
            rw [Nat.testBit_xor, Nat.testBit_two_pow]
            conv => lhs; rw [h3]
            rw [Nat.testBit_two_pow_mul_add _ h4]
            by_cases hi : i < f.width - 1
            · have : ¬(f.width - 1 = i) := by omega
              simp [hi, this]
            · have hz : (pack f 0 f.emax 0).testBit i = false := Nat.testBit_lt_two_pow (Nat.lt_of_lt_of_le h4 (Nat.pow_le_pow_right (by omega) (by omega)))
              rw [if_neg hi, hz]
              by_cases hi2 : f.width - 1 = i
              · simp [hi2]
              · have : (1 : Nat).testBit (i - (f.width - 1)) = false := Nat.testBit_lt_two_pow (by
                  have : 2 ^ 1 ≤ 2 ^ (i - (f.width - 1)) := Nat.pow_le_pow_right (by omega) (by omega)
                  omega)
                simp [hi2, this]
          refine ⟨_, rfl, fun _ h => absurd hiy h, fun _ => ?_⟩
          rw [hfl]
          exact ⟨isInf_pack 0, sgn_inf⟩
        · rw [if_neg hiy, if_neg (by omega)]
          refine ⟨_, rfl, fun _ _ => ?_, fun h => ?_⟩
          · have e1 : decide (val f x < val f y) = false := by simp; omega
            have e2 : (val f x - val f y).natAbs = (val f x - val f y).toNat := by omega
            rw [e1, e2]
            exact roundTo_spec hf _ _ _
          · rcases h with h | h
            · exact absurd h.1 hix
            · exact absurd h.1 hiy

/-- 1 - 2^-149 is rounded: to 1, or to the number below it. inf - (-inf) = inf. -/
example : fdim float .nearest 0x3f800000 1 = .bits 0x3f800000 ∧ fdim float .down 0x3f800000 1 = .bits 0x3f7fffff ∧ fdim float .up 0x7f800000 0xff800000 = .bits 0x7f800000 ∧
    fdim float .nearest 0 0x3f800000 = .bits 0 := by decide +kernel

/-! ## Exponents -/

/-- `a 2^m = b 2^k` says that `a = b 2^(k - m)`. -/
theorem balance {a b m k : Nat} {p : Int} (h : a * 2 ^ m = b * 2 ^ k) (hp : p = (k : Int) - m) : a * 2 ^ (-p).toNat = b * 2 ^ p.toNat := by
  rcases Nat.lt_or_ge k m with hk | hk
  · obtain ⟨d, rfl⟩ : ∃ d, m = k + d := ⟨m - k, by omega⟩
    rw [Nat.pow_add, Nat.mul_comm (2 ^ k), ← Nat.mul_assoc] at h
    have := Nat.eq_of_mul_eq_mul_right (by positivity) h
    rw [show (-p).toNat = d by omega, show p.toNat = 0 by omega, this, Nat.pow_zero, Nat.mul_one]
  · obtain ⟨d, rfl⟩ : ∃ d, k = m + d := ⟨k - m, by omega⟩
    rw [Nat.pow_add, Nat.mul_comm (2 ^ m), ← Nat.mul_assoc] at h
    have := Nat.eq_of_mul_eq_mul_right (by positivity) h
    rw [show (-p).toNat = 0 by omega, show p.toNat = d by omega, this, Nat.pow_zero, Nat.mul_one]

/-- What `frexp` is to return: `x = r 2^e` with `r` at least 1/2 and less than 1, and of the sign of `x`. -/
structure Split (f : Fmt) (x r : Nat) (e : Int) : Prop where
  lt : r < 2 ^ f.width
  fin : Finite f r
  sign : sgn f r = sgn f x
  lo : one f ≤ 2 * units f r
  hi : units f r < one f
  eq : units f x * 2 ^ (-e).toNat = units f r * 2 ^ e.toNat

theorem frexp_normal (hf : f.Ok) {x : Nat} (hx : x < 2 ^ f.width) (h0 : ex f x ≠ 0) (h1 : Finite f x) (n : Nat) :
    ∃ r e, frexp f mode (n + 1) x = some (.bits r, e) ∧ Split f x r e := by
  have hE := hf.emax_eq
  have hB := hf.bias_big
  have he := ex_lt (f := f) x
  have hm := man_lt (f := f) x
  have hs := sgn_lt hx
  have hem := emax_lt f
  have hp : 0 < 2 ^ f.mb := by positivity
  refine ⟨pack f (sgn f x) (f.bias - 1) (man f x), (ex f x : Int) - (f.bias - 1 : Nat), ?_, pack_lt hs (by omega) hm, ?_, sgn_pack (by omega) hm, ?_, ?_, ?_⟩
  · rw [frexp]
    rw [show (x >>> f.mb) &&& (2 ^ f.eb - 1) = ex f x from rfl, if_neg h0, if_neg (show ¬ex f x = 2 ^ f.eb - 1 from h1)]
    congr 4
    conv => lhs; lhs; lhs; rw [← pack_fields (f := f) x]
    rw [and_pack he hm (by positivity) (by omega), or_pack (Nat.and_lt_two_pow _ (by positivity)) (Nat.and_lt_two_pow _ (by omega)) (by omega) hp,
      Nat.and_two_pow_sub_one_eq_mod, Nat.mod_eq_of_lt hm, Nat.and_zero, Nat.zero_or, Nat.or_zero, Nat.or_zero]
    congr 1
    rw [Nat.and_one_is_mod, Nat.mod_eq_of_lt hs]
  · rw [Finite, ex_pack (by omega) hm]; omega
  · rw [units_pack (by omega) hm, if_neg (by omega), one_eq hf]
    have : 2 ^ (f.bias - 1) = 2 * 2 ^ (f.bias - 1 - 1) := by rw [← Nat.pow_succ']; congr 1; omega
    rw [this]
    nlinarith [Nat.zero_le (man f x * 2 ^ (f.bias - 1 - 1))]
  · rw [units_pack (by omega) hm, if_neg (by omega), one_eq hf]
    have : 2 ^ (f.bias - 1) = 2 * 2 ^ (f.bias - 1 - 1) := by rw [← Nat.pow_succ']; congr 1; omega
    rw [this, ← Nat.mul_assoc, Nat.mul_comm _ 2]
    exact Nat.mul_lt_mul_of_pos_right (by omega) (by positivity)
  · have hu : units f x = (2 ^ f.mb + man f x) * 2 ^ (ex f x - 1) := by rw [units, if_neg h0]
    rw [units_pack (by omega) hm, if_neg (by omega), hu]
    refine balance (m := f.bias - 1 - 1) (k := ex f x - 1) (by ring) (by omega)

theorem enc_sgn (hf : f.Ok) {x : Nat} {m : Nat} (hx : x < 2 ^ f.width) (hr : Rep f m) (hl : m < 2 ^ (f.mb + 2 * f.bias)) :
    enc f ⟨neg f x, m⟩ < 2 ^ f.width ∧ Finite f (enc f ⟨neg f x, m⟩) ∧ sgn f (enc f ⟨neg f x, m⟩) = sgn f x ∧ units f (enc f ⟨neg f x, m⟩) = m := by
  obtain ⟨e1, e2, e3, e4⟩ := enc_neg hf (b := neg f x) hr hl
  exact ⟨e1, e2, neg_sgn e1 hx e3, e4⟩

/-- **frexp** takes numbers apart, exactly; also subnormal ones. -/
theorem frexp_spec (hf : f.Ok) (h64 : f.mb ≤ 64 ∧ 64 < f.bias) {x : Nat} (hx : x < 2 ^ f.width) (fx : Finite f x) (h0 : units f x ≠ 0) (n : Nat) :
    ∃ r e, frexp f mode (n + 2) x = some (.bits r, e) ∧ Split f x r e := by
  have hE := hf.emax_eq
  by_cases he : ex f x = 0
  · have hu := units_sub he
    have hm := man_lt (f := f) x
    have hrep := rep_mul (s := 64) (units_rep (f := f) x)
    have hlt : units f x * 2 ^ 64 < 2 ^ (f.mb + 2 * f.bias) := by
      calc units f x * 2 ^ 64 < 2 ^ f.mb * 2 ^ 64 := Nat.mul_lt_mul_of_pos_right (by omega) (by positivity)
        _ = 2 ^ (f.mb + 64) := by rw [Nat.pow_add]
        _ ≤ 2 ^ (f.mb + 2 * f.bias) := Nat.pow_le_pow_right (by omega) (by omega)
    obtain ⟨y1, y2, y3, y4⟩ := enc_sgn hf hx hrep hlt
    have hmul : fmul f mode x (pack f 0 (f.bias + 64) 0) = .bits (enc f ⟨neg f x, units f x * 2 ^ 64⟩) := by
      rw [mul_pow hf hx fx (by omega) (by omega), scaled, show ((f.bias + 64 : Nat) : Int) - f.bias = 64 by omega]
      have := roundTo_exact (mode := mode) (neg := neg f x) 0 hf hrep hlt
      rw [Nat.pow_zero, Nat.mul_one] at this
      exact congrArg Out.bits this
    have hey : ex f (enc f ⟨neg f x, units f x * 2 ^ 64⟩) ≠ 0 := by
      intro hc
      have h1 := units_sub hc
      have h2 := man_lt (f := f) (enc f ⟨neg f x, units f x * 2 ^ 64⟩)
      have h3 : 2 ^ f.mb ≤ 2 ^ 64 := Nat.pow_le_pow_right (by omega) h64.1
      have h4 : 1 * 2 ^ 64 ≤ units f x * 2 ^ 64 := Nat.mul_le_mul_right _ (by omega)
      omega
    obtain ⟨r, e, g1, g2⟩ := frexp_normal (mode := mode) hf y1 hey y2 n
    refine ⟨r, e - 64, ?_, ⟨g2.lt, g2.fin, by rw [g2.sign, y3], g2.lo, g2.hi, ?_⟩⟩
    · rw [frexp]
      rw [show (x >>> f.mb) &&& (2 ^ f.eb - 1) = ex f x from rfl, if_pos he, if_pos h0, hmul]
      simp only
      rw [g1]
      rfl
    · have := g2.eq
      rw [y4, Nat.mul_assoc, ← Nat.pow_add] at this
      exact balance this (by omega)
  · exact frexp_normal hf hx he fx (n + 1)

/-- Zeros, infinities and NaNs are returned as they are. -/
theorem frexp_special {x : Nat} (h : ¬Finite f x ∨ (ex f x = 0 ∧ units f x = 0)) (hf : f.Ok) (n : Nat) : frexp f mode (n + 1) x = some (.bits x, 0) := by
  have hE := hf.emax_eq
  rw [frexp]
  rw [show (x >>> f.mb) &&& (2 ^ f.eb - 1) = ex f x from rfl]
  rcases h with h | h
  · have : ex f x = f.emax := Classical.not_not.1 h
    rw [if_neg (by omega), if_pos (show ex f x = 2 ^ f.eb - 1 from this)]
  · rw [if_pos h.1, if_neg (by simp [h.2])]

theorem double_64 : double.mb ≤ 64 ∧ 64 < double.bias := by decide
theorem float_64 : float.mb ≤ 64 ∧ 64 < float.bias := by decide

/-- 8 = 0.5 * 2^4; the smallest number is 0.5 * 2^-1073. The constant of frexp.c L21 is that of the model. -/
example : frexp double .nearest 2 0x4020000000000000 = some (.bits 0x3fe0000000000000, 4) ∧ frexp double .nearest 2 1 = some (.bits 0x3fe0000000000000, -1073) ∧
    pack double 1 0 (2 ^ 52 - 1) = 0x800fffffffffffff ∧ pack float 1 0 (2 ^ 23 - 1) = 0x807fffff := by decide +kernel

/-- `k` is the exponent of `x`: `2^k <= |x| < 2^(k+1)`. -/
def Exponent (f : Fmt) (x : Nat) (k : Int) : Prop :=
  one f * 2 ^ k.toNat ≤ units f x * 2 ^ (-k).toNat ∧ units f x * 2 ^ (-k).toNat < 2 * (one f * 2 ^ k.toNat)

theorem ilogb_eq (hf : f.Ok) {x : Nat} (hx : x < 2 ^ f.width) (fx : Finite f x) (h0 : units f x ≠ 0) :
    ∃ k, ilogb f x = some k ∧ Exponent f x k ∧ -(f.bias + f.mb : Int) ≤ k ∧ k ≤ f.bias ∧
      ∃ m, Rep f m ∧ units f x * 2 ^ (-k).toNat = m * 2 ^ k.toNat := by
  have hE := hf.emax_eq
  have hB := hf.bias_big
  have hm := man_lt (f := f) x
  have he := ex_lt (f := f) x
  have hmb := hf.mb2
  have hp : 0 < 2 ^ f.mb := by positivity
  unfold ilogb
  simp only
  rw [show (x >>> f.mb) &&& (2 ^ f.eb - 1) = ex f x from rfl]
  by_cases hex : ex f x = 0
  · rw [if_pos hex]
    have hu := units_sub hex
    rw [if_neg ((shl_frac_ne x).2 (by omega)), shl_frac]
    have hw : 2 ^ f.width = 2 ^ f.mb * 2 ^ (f.eb + 1) := by rw [Fmt.width, ← Nat.pow_add]; congr 1
    have hep : 0 < 2 ^ (f.eb + 1) := by positivity
    have hlt : man f x * 2 ^ (f.eb + 1) < 2 ^ f.width := by rw [hw]; exact Nat.mul_lt_mul_of_pos_right hm hep
    have hpos : 0 < man f x * 2 ^ (f.eb + 1) := Nat.mul_pos (by omega) hep
    obtain ⟨j, j1, j2, j3⟩ := normLoop_spec f.width (man f x * 2 ^ (f.eb + 1)) (-f.bias) hpos hlt (Nat.le_mul_of_pos_left _ hpos)
    have hj3 : man f x * 2 ^ j < 2 ^ f.mb := by
      rw [hw, Nat.mul_right_comm] at j3
      exact Nat.lt_of_mul_lt_mul_right j3
    have hj2 : 2 ^ f.mb ≤ 2 * (man f x * 2 ^ j) := by
      have : 2 * 2 ^ (f.width - 1) ≤ 2 * (man f x * 2 ^ (f.eb + 1) * 2 ^ j) := Nat.mul_le_mul_left _ j2
      rw [← two_pow_width, hw] at this
      refine Nat.le_of_mul_le_mul_right (c := 2 ^ (f.eb + 1)) ?_ hep
      calc _ ≤ _ := this
        _ = _ := by ring
    have hjm : j < f.mb := by
      by_contra hc
      have : 2 ^ f.mb ≤ 2 ^ j := Nat.pow_le_pow_right (by omega) (by omega)
      have : 2 ^ j ≤ man f x * 2 ^ j := Nat.le_mul_of_pos_left _ (by omega)
      omega
    refine ⟨_, j1, ?_, by omega, by omega, man f x * 2 ^ (f.bias + j), ?_, ?_⟩
    · rw [Exponent, show (-(f.bias : Int) - j).toNat = 0 by omega, show (-(-(f.bias : Int) - j)).toNat = j + 1 + (f.bias - 1) by omega, hu, one_eq hf, Nat.pow_zero, Nat.mul_one,
        Nat.pow_add 2 (j + 1), ← Nat.mul_assoc, Nat.pow_succ]
      have q : 0 < 2 ^ (f.bias - 1) := by positivity
      constructor
      · refine Nat.mul_le_mul_right _ ?_
        rw [← Nat.mul_assoc]; omega
      · rw [← Nat.mul_assoc, ← Nat.mul_assoc]
        refine Nat.mul_lt_mul_of_pos_right ?_ q
        omega
    · rw [← hu]; exact rep_mul (units_rep x)
    · rw [show (-(f.bias : Int) - j).toNat = 0 by omega, show (-(-(f.bias : Int) - j)).toNat = f.bias + j by omega, hu, Nat.pow_zero, Nat.mul_one]
  · rw [if_neg hex, if_neg (show ¬ex f x = 2 ^ f.eb - 1 from fx)]
    have hle : ex f x < f.emax := by unfold Finite Fmt.emax at *; omega
    have hu : units f x = (2 ^ f.mb + man f x) * 2 ^ (ex f x - 1) := by rw [units, if_neg hex]
    refine ⟨_, rfl, ?_, by omega, by omega, (2 ^ f.mb + man f x) * 2 ^ (f.bias - 1), ?_, ?_⟩
    · rw [Exponent, hu, one_eq hf, Nat.mul_assoc, Nat.mul_assoc, ← Nat.pow_add 2 (f.bias - 1), ← Nat.pow_add 2 (ex f x - 1),
        show ex f x - 1 + (-((ex f x : Int) - f.bias)).toNat = f.bias - 1 + ((ex f x : Int) - f.bias).toNat by omega]
      have q : 0 < 2 ^ (f.bias - 1 + ((ex f x : Int) - f.bias).toNat) := by positivity
      constructor
      · exact Nat.mul_le_mul_right _ (by omega)
      · rw [← Nat.mul_assoc]
        exact Nat.mul_lt_mul_of_pos_right (by omega) q
    · refine rep_mul ⟨0, by simp, ?_⟩
      rw [Nat.add_zero, Nat.pow_succ]; omega
    · rw [hu]
      exact balance (m := f.bias - 1) (k := ex f x - 1) (by ring) (by omega)

/-- **ilogb**: the exponent, also of subnormal numbers; the constants of <math.h> for what has none. -/
theorem ilogb_spec (hf : f.Ok) {x : Nat} (hx : x < 2 ^ f.width) :
    (Finite f x → units f x ≠ 0 → ∃ k, ilogb f x = some k ∧ Exponent f x k) ∧
    (Finite f x → units f x = 0 → ilogb f x = some (-2147483648)) ∧
    (IsInf f x → ilogb f x = some 2147483647) ∧ (IsNan f x → ilogb f x = some (-2147483648)) := by
  have hE := hf.emax_eq
  refine ⟨fun h1 h2 => ?_, fun h1 h2 => ?_, fun h => ?_, fun h => ?_⟩
  · obtain ⟨k, k1, k2, _⟩ := ilogb_eq hf hx h1 h2
    exact ⟨k, k1, k2⟩
  all_goals
    unfold ilogb
    simp only
    rw [show (x >>> f.mb) &&& (2 ^ f.eb - 1) = ex f x from rfl]
  · have he : ex f x = 0 := by
      by_contra hc
      have : 2 ^ (f.mb + 0) ≤ units f x := units_ge_of_ex (by omega)
      have : 0 < 2 ^ (f.mb + 0) := by positivity
      omega
    rw [if_pos he, if_pos]
    rw [shl_frac, ← units_sub he, h2, Nat.zero_mul]
  · rw [if_neg (by rw [h.1]; omega), if_pos (show ex f x = 2 ^ f.eb - 1 from h.1), if_neg (by rw [shl_frac_ne]; exact fun hc => hc h.2)]
  · rw [if_neg (by rw [h.1]; omega), if_pos (show ex f x = 2 ^ f.eb - 1 from h.1), if_pos ((shl_frac_ne x).2 h.2)]

/-- The exponents of 1, of the smallest and of the largest number. -/
example : ilogb double 0x3ff0000000000000 = some 0 ∧ ilogb double 1 = some (-1074) ∧ ilogb float 0x7f7fffff = some 127 := by decide +kernel

/-- **logb**: the exponent as a number; -inf for zeros, +inf for infinities. -/
theorem logb_spec (hf : f.Ok) (hb : f.bias + f.mb < 2 ^ (f.mb + 1)) {x : Nat} (hx : x < 2 ^ f.width) :
    (Finite f x → units f x ≠ 0 → ∃ r k, logb f mode x = some (.bits r) ∧ r < 2 ^ f.width ∧ Finite f r ∧ val f r = k * one f ∧ Exponent f x k) ∧
    (Finite f x → units f x = 0 → ∃ r, logb f mode x = some (.bits r) ∧ IsInf f r ∧ sgn f r = 1) ∧
    (IsInf f x → ∃ r, logb f mode x = some (.bits r) ∧ IsInf f r ∧ sgn f r = 0) ∧ (IsNan f x → logb f mode x = some .nan) := by
  have hE := hf.emax_eq
  have hi := isfinite_iff hf hx
  unfold logb
  refine ⟨fun h1 h2 => ?_, fun h1 h2 => ?_, fun h => ?_, fun h => ?_⟩
  · rw [if_neg (by rw [hi]; exact fun hc => hc h1), if_neg h2]
    obtain ⟨k, k1, k2, k3, k4, _⟩ := ilogb_eq hf hx h1 h2
    rw [k1]
    have hk : k.natAbs < 2 ^ (f.mb + 1) := by omega
    have hr : Rep f (k.natAbs * one f) := rep_mul_one (by omega)
    have hl := big_lt hf hk
    have := roundTo_exact (mode := mode) (neg := decide (k < 0)) 0 hf hr hl
    rw [Nat.pow_zero, Nat.mul_one] at this
    refine ⟨_, k, by rw [Option.map_some, this], ?_⟩
    obtain ⟨e1, e2, e3, _⟩ := enc_any hf (a := ⟨decide (k < 0), k.natAbs * one f⟩) rfl hr hl
    refine ⟨e1, e2, ?_, k2⟩
    rw [e3, Num.val]
    by_cases hneg : k < 0
    · rw [if_pos (by simp [hneg])]
      push_cast
      rw [abs_of_neg hneg]; ring
    · rw [if_neg (by simp [hneg])]
      push_cast
      rw [abs_of_nonneg (by omega)]
  · rw [if_neg (by rw [hi]; exact fun hc => hc h1), if_pos h2]
    exact ⟨_, rfl, isInf_pack 1, sgn_inf⟩
  · rw [if_pos (by rw [hi]; exact fun hc => hc h.1)]
    unfold fmul
    simp only
    have u := units_inf hf h
    have hB : 0 < 2 ^ (f.mb + 2 * f.bias) := by positivity
    rw [if_neg (by rintro (g | g) <;> exact g.2 h.2), if_pos (.inl h.1), if_neg (by omega)]
    refine ⟨_, rfl, ?_⟩
    simp only [ne_eq, not_true_eq_false, decide_false, Bool.false_eq_true, if_false]
    exact ⟨isInf_pack 0, sgn_inf⟩
  · rw [if_pos (by rw [hi]; exact fun hc => hc h.1), nan_mul h]

theorem double_log : double.bias + double.mb < 2 ^ (double.mb + 1) := by decide
theorem float_log : float.bias + float.mb < 2 ^ (float.mb + 1) := by decide

/-- **significand, missing: zeros and NaNs, see `significand_violated`.** `x = r 2^k` with `1 <= |r| < 2`, exactly. -/
theorem significand_partial (hf : f.Ok) (hb : 3 * f.mb + 6 ≤ f.bias ∧ f.mb + 2 * f.bias < 2147483647) {x : Nat} (hx : x < 2 ^ f.width) :
    (Finite f x → units f x ≠ 0 → ∃ r k, significand f mode x = some (.ok (.bits r)) ∧ r < 2 ^ f.width ∧ Finite f r ∧ sgn f r = sgn f x ∧
      one f ≤ units f r ∧ units f r < 2 * one f ∧ units f x * 2 ^ (-k).toNat = units f r * 2 ^ (k : Int).toNat) ∧
    (IsInf f x → significand f mode x = some (.ok (.bits x))) := by
  unfold significand
  constructor
  · intro h1 h2
    obtain ⟨k, k1, k2, k3, k4, m, m1, m2⟩ := ilogb_eq hf hx h1 h2
    rw [k1]
    have hkp : 0 < 2 ^ k.toNat := by positivity
    have hlo : one f ≤ m := by
      have := k2.1
      rw [m2] at this
      exact Nat.le_of_mul_le_mul_right this hkp
    have hhi : m < 2 * one f := by
      have := k2.2
      rw [m2, ← Nat.mul_assoc] at this
      exact Nat.lt_of_mul_lt_mul_right this
    have hl : m < 2 ^ (f.mb + 2 * f.bias) := by
      refine Nat.lt_trans hhi ?_
      have h2m : 2 < 2 ^ (f.mb + 1) := by
        have := hf.mb2
        calc 2 < 2 ^ 3 := by decide
          _ ≤ 2 ^ (f.mb + 1) := Nat.pow_le_pow_right (by omega) (by omega)
      exact big_lt hf h2m
    obtain ⟨e1, e2, e3, e4⟩ := enc_sgn hf hx m1 hl
    have hne : k ≠ -2147483648 := by omega
    refine ⟨enc f ⟨neg f x, m⟩, k, ?_, e1, e2, e3, by rw [e4]; exact hlo, by rw [e4]; exact hhi, by rw [e4]; exact m2⟩
    rw [Option.map_some, if_neg hne, scalbn_eq hf hb.1 hx h1, scaled, neg_neg, m2, roundTo_exact _ hf m1 hl]
  · intro h
    rw [(ilogb_spec hf hx).2.2.1 h, Option.map_some, if_neg (by decide), (scalbn_special hf hx _).1 h]

/-- **Violation**: the significand of a zero is that zero, and of a NaN a NaN. The code negates the INT_MIN that ilogb returns for them, which overflows. -/
theorem significand_violated (hf : f.Ok) {x : Nat} (hx : x < 2 ^ f.width) (h : IsNan f x ∨ (Finite f x ∧ units f x = 0)) : significand f mode x = some .ub := by
  unfold significand
  rcases h with h | ⟨h1, h2⟩
  · rw [(ilogb_spec hf hx).2.2.2 h]; rfl
  · rw [(ilogb_spec hf hx).2.1 h1 h2]; rfl

example : significand double .nearest 0 = some .ub ∧ significand double .nearest 3 = some (.ok (.bits 0x3ff8000000000000)) ∧ logb float .nearest 0x41000000 = some (.bits 0x40400000) := by
  decide +kernel

end

end Mlibc.Math
