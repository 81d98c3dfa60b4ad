import Verif.Math.Parts

/-
options/ansi/musl-generic-math: sqrt and sqrtf, which find the root bit by bit.
-/
namespace Mlibc.Math

/-! ## The specification -/

/-- `r` is the square root of `x`, correctly rounded. With magnitudes counted in units, of which `one` make 1, the root is the square root of `units x * one`.
In the mode to nearest the root is nearer to `r` than to any other number `v`: `r` and the root are on the same side of the middle of `r` and `v`. In the other modes
`r` is the closest number that is not less, or not more, than the root. -/
structure RootOf (f : Fmt) (mode : Mode) (x r : Nat) : Prop where
  lt : r < 2 ^ f.width
  fin : Finite f r
  pos : sgn f r = 0
  near : mode = .nearest → ∀ v, Finite f v →
    (units f v < units f r → (units f v + units f r) ^ 2 < 4 * (units f x * one f)) ∧ (units f r < units f v → 4 * (units f x * one f) < (units f v + units f r) ^ 2)
  up : mode = .up → units f x * one f ≤ units f r ^ 2 ∧ ∀ v, Finite f v → units f v < units f r → units f v ^ 2 < units f x * one f
  down : mode = .down ∨ mode = .zero → units f r ^ 2 ≤ units f x * one f ∧ ∀ v, Finite f v → units f r < units f v → units f x * one f < units f v ^ 2

/-! ## The model -/

/-- A value of type int32_t that is not negative. In what follows `none` stands for an overflow of such a variable, and for a loop that does not end; the theorems
show that neither happens. sqrt.c L87, sqrtf.c L24 -/
def i32 (n : Nat) : Option Nat := if n < 2 ^ 31 then some n else none

/-- sqrt.c L111-L112, sqrtf.c L43-L44: `for (i=0; (ix0&0x00100000) == 0; i++) ix0<<=1;`. -/
def shiftLoop (bit : Nat) : Nat → Nat → Nat → Option (Nat × Nat)
  | 0, _, _ => none
  | n + 1, ix, i => if ix &&& bit = 0 then (i32 (ix <<< 1)).bind fun ix => shiftLoop bit n ix (i + 1) else some (ix, i)

/-- sqrtf.c L58-L67; `ix` and `q` at its end. -/
def rootLoop : Nat → Nat → Nat → Nat → Nat → Option (Nat × Nat)
  | 0, _, _, _, _ => none
  | n + 1, ix, s, q, r =>
    if r = 0 then some (ix, q)
    else
      (i32 (s + r)).bind fun t =>                                                    -- L59
      if t ≤ ix then                                                                 -- L60
        (i32 (t + r)).bind fun s =>
        (i32 (q + r)).bind fun q =>
        (i32 (ix - t + (ix - t))).bind fun ix => rootLoop n ix s q (r >>> 1)
      else (i32 (ix + ix)).bind fun ix => rootLoop n ix s q (r >>> 1)                -- L65-L66

/-- sqrt.c L164-L174, sqrtf.c L71-L77: whether `1.0 - tiny >= 1.0`, and whether `1.0 + tiny > 1.0`. -/
def tinyTest (f : Fmt) (mode : Mode) (tiny : Nat) : Bool × Bool :=
  (decide ((lit f f.bias).val ≤ (fsub f mode (lit f f.bias) (dec f tiny)).val), decide ((lit f f.bias).val < (fadd f mode (lit f f.bias) (dec f tiny)).val))

/-- sqrtf.c L20-L84. The sum `x*x + x` (L31) of an infinity or a NaN is the positive infinity for it and a NaN for the others, `(x-x)/(x-x)` (L38) is a NaN. The shift of a
negative `m` to the left (L81) is what gcc makes of it: a product. tiny is 1.0e-30 (L18). -/
def sqrtf (mode : Mode) (u : Nat) : Option Out :=
  if u &&& 0x7f800000 = 0x7f800000 then some (if man float u ≠ 0 ∨ sgn float u ≠ 0 then .nan else .bits u)      -- L30
  else if u = 0 ∨ 0x80000000 ≤ u then                                                -- L34
    if u &&& 0x7fffffff = 0 then some (.bits u) else some .nan                       -- L35-L38
  else
    (if u >>> 23 = 0 then (shiftLoop 0x800000 33 u 0).map fun p => (p.1, (u >>> 23 : Nat) - ((p.2 : Int) - 1))   -- L41-L46
     else some (u, ((u >>> 23 : Nat) : Int))).bind fun p =>
    let m := p.2 - 127                                                               -- L47
    let ix := (p.1 &&& 0x7fffff) ||| 0x800000                                        -- L48
    let ix := if m % 2 = 1 then ix + ix else ix                                      -- L49
    let m := m / 2                                                                   -- L51
    (rootLoop 33 (ix + ix) 0 0 0x1000000).map fun p =>                               -- L54-L67
      let z := tinyTest float mode 0x0da24260
      let q := if p.1 ≠ 0 ∧ z.1 = true then (if z.2 = true then p.2 + 2 else p.2 + (p.2 &&& 1)) else p.2      -- L70-L79
      .bits (((q >>> 1 : Nat) : Int) + 0x3f000000 + m * 2 ^ 23).toNat                -- L80-L82

/-- sqrt.c L106-L110. -/
def liftLoop : Nat → Nat → Nat → Int → Option (Nat × Nat × Int)
  | 0, _, _, _ => none
  | n + 1, ix0, ix1, m => if ix0 = 0 then liftLoop n (ix1 >>> 11) ((ix1 <<< 21) % 2 ^ 32) (m - 21) else some (ix0, ix1, m)

/-- sqrt.c L120-L121, L126-L127, L138-L139, L157-L158: twoWords the two words. -/
def twoWords (ix0 ix1 : Nat) : Option (Nat × Nat) := (i32 (ix0 + ix0 + ((ix1 &&& 0x80000000) >>> 31))).map fun i => (i, (ix1 + ix1) % 2 ^ 32)

/-- sqrt.c L131-L141. -/
def highLoop : Nat → Nat → Nat → Nat → Nat → Nat → Option (Nat × Nat × Nat × Nat)
  | 0, _, _, _, _, _ => none
  | n + 1, ix0, ix1, s0, q, r =>
    if r = 0 then some (ix0, ix1, s0, q)
    else
      (i32 (s0 + r)).bind fun t =>                                                   -- L132
      if t ≤ ix0 then                                                                -- L133
        (i32 (t + r)).bind fun s0 =>
        (i32 (q + r)).bind fun q =>
        (twoWords (ix0 - t) ix1).bind fun p => highLoop n p.1 p.2 s0 q (r >>> 1)
      else (twoWords ix0 ix1).bind fun p => highLoop n p.1 p.2 s0 q (r >>> 1)

/-- sqrt.c L144-L160. `ix0` is not below 0 at L151 and L153, since the condition of L147 holds. -/
def lowLoop : Nat → Nat → Nat → Nat → Nat → Nat → Nat → Option (Nat × Nat × Nat)
  | 0, _, _, _, _, _, _ => none
  | n + 1, ix0, ix1, s0, s1, q1, r =>
    if r = 0 then some (ix0, ix1, q1)
    else
      let t1 := (s1 + r) % 2 ^ 32                                                    -- L145
      if s0 < ix0 ∨ (s0 = ix0 ∧ t1 ≤ ix1) then                                       -- L147
        let s1' := (t1 + r) % 2 ^ 32                                                 -- L148
        let s0' := if t1 &&& 0x80000000 = 0x80000000 ∧ s1' &&& 0x80000000 = 0 then s0 + 1 else s0      -- L149-L150
        let ix0' := if ix1 < t1 then ix0 - s0 - 1 else ix0 - s0                      -- L151-L153
        let ix1' := (ix1 + 2 ^ 32 - t1) % 2 ^ 32                                     -- L154
        (twoWords ix0' ix1').bind fun p => lowLoop n p.1 p.2 s0' s1' ((q1 + r) % 2 ^ 32) (r >>> 1)
      else (twoWords ix0 ix1).bind fun p => lowLoop n p.1 p.2 s0 s1 q1 (r >>> 1)

/-- sqrt.c L104-L116: the two words and the exponent. `over y` is what `y >> 32` gives (L114, if `i` is 0), which C does not define. -/
def normD (over : Nat → Res Nat) (u : Nat) : Option (Res (Nat × Nat × Int)) :=
  if u >>> 32 >>> 20 = 0 then
    (liftLoop 3 (u >>> 32) (u % 2 ^ 32) 0).bind fun p =>                             -- L106-L110
    (shiftLoop 0x100000 33 p.1 0).map fun s =>                                       -- L111
      (if s.2 = 0 then over p.2.1 else .ok (p.2.1 >>> (32 - s.2))).bind fun w =>
      .ok (s.1 ||| w, (p.2.1 <<< s.2) % 2 ^ 32, p.2.2 - ((s.2 : Int) - 1))            -- L113-L115
  else some (.ok (u >>> 32, u % 2 ^ 32, (u >>> 32 >>> 20 : Nat)))

/-- sqrt.c L117-L184, from the words and the exponent; tiny is 1.0e-300 (L81). -/
def finishD (mode : Mode) (ix0 ix1 : Nat) (m : Int) : Option Out :=
  let m := m - 1023                                                                  -- L117
  let ix0 := (ix0 &&& 0xfffff) ||| 0x100000                                          -- L118
  (if m % 2 = 1 then twoWords ix0 ix1 else some (ix0, ix1)).bind fun p =>               -- L119-L122
  let m := m / 2                                                                     -- L123
  (twoWords p.1 p.2).bind fun p =>                                                      -- L126-L127
  (highLoop 33 p.1 p.2 0 0 0x200000).bind fun h =>                                   -- L128-L141
  (lowLoop 33 h.1 h.2.1 h.2.2.1 0 0 0x80000000).map fun l =>                         -- L143-L160
    let q := h.2.2.2
    let q1 := l.2.2
    let z := tinyTest double mode 0x01a56e1fc2f8f359
    let p :=
      if l.1 ||| l.2.1 ≠ 0 ∧ z.1 = true then                                         -- L163-L165
        if q1 = 0xffffffff then (q + 1, 0)                                           -- L167-L169
        else if z.2 = true then (if q1 = 0xfffffffe then q + 1 else q, (q1 + 2) % 2 ^ 32)      -- L170-L173
        else (q, q1 + (q1 &&& 1))                                                    -- L175
      else (q, q1)
    let ix1 := if p.1 &&& 1 ≠ 0 then (p.2 >>> 1) ||| 0x80000000 else p.2 >>> 1       -- L179-L181
    .bits (((((p.1 >>> 1 : Nat) : Int) + 0x3fe00000 + m * 2 ^ 20).toNat) * 2 ^ 32 + ix1)      -- L178, L182-L183

/-- sqrt.c L83-L185. The sum `x*x + x` (L94) and `(x-x)/(x-x)` (L101) as in `sqrtf`. -/
def sqrt (over : Nat → Res Nat) (mode : Mode) (u : Nat) : Option (Res Out) :=
  if (u >>> 32) &&& 0x7ff00000 = 0x7ff00000 then some (.ok (if man double u ≠ 0 ∨ sgn double u ≠ 0 then .nan else .bits u))      -- L93
  else if u >>> 32 = 0 ∧ u % 2 ^ 32 = 0 then some (.ok (.bits u))                    -- L97-L99
  else if 0x80000000 ≤ u >>> 32 then
    if ((u >>> 32) &&& 0x7fffffff) ||| u % 2 ^ 32 = 0 then some (.ok (.bits u)) else some (.ok .nan)      -- L98-L101
  else
    (normD over u).bind fun p =>
      match p with
      | .ok p => (finishD mode p.1 p.2.1 p.2.2).map .ok
      | .ub => some .ub
      | .panic => some .panic

example : sqrtf .nearest 0x40000000 = some (.bits 0x3fb504f3) ∧ sqrtf .up 1 = some (.bits 0x1a3504f4) ∧ sqrtf .zero 0x41100000 = some (.bits 0x40400000) := by decide +kernel
example : sqrt (fun _ => .ub) .nearest 0x4000000000000000 = some (.ok (.bits 0x3ff6a09e667f3bcd)) ∧ sqrt (fun _ => .ub) .up 1 = some (.ok (.bits 0x1e60000000000000)) ∧
    sqrt (fun _ => .ub) .down 2 = some (.ok (.bits 0x1e66a09e667f3bcc)) := by decide +kernel

section
variable {f : Fmt} {mode : Mode}

/-! ## The root, bit by bit -/

/-- What holds when the bits of the root down to `2^k` have been found: `q` is the root so far, `v` the rest, shifted, and `n` bits are to be found. -/
structure Inv (n k v q N : Nat) : Prop where
  eq : v * 2 ^ k + 2 * q ^ 2 = 2 * N
  lt : N < (q + 2 ^ k) ^ 2
  dvd : 2 ^ k ∣ q
  le : q + 2 ^ k ≤ 2 ^ n

theorem Inv.bound {n k v q N : Nat} (h : Inv n k v q N) : v < 2 ^ (n + 2) := by
  have h1 := h.eq
  have h2 := h.lt
  have h3 := h.le
  have hp : 0 < 2 ^ k := by positivity
  generalize hP : 2 ^ k = p at *
  have : v * p < (4 * q + 2 * p) * p := by nlinarith
  have := Nat.lt_of_mul_lt_mul_right this
  rw [Nat.pow_add]
  omega

theorem Inv.take {n k v q N : Nat} (h : Inv n (k + 1) v q N) (hv : 2 * q + 2 ^ k ≤ v) : Inv n k (2 * (v - (2 * q + 2 ^ k))) (q + 2 ^ k) N := by
  obtain ⟨h1, h2, h3, h4⟩ := h
  rw [Nat.pow_succ] at *
  obtain ⟨w, rfl⟩ : ∃ w, v = 2 * q + 2 ^ k + w := ⟨v - (2 * q + 2 ^ k), by omega⟩
  refine ⟨?_, ?_, ?_, by omega⟩
  · rw [Nat.add_sub_cancel_left, ← h1]; ring
  · rw [show q + 2 ^ k + 2 ^ k = q + 2 ^ k * 2 by ring]; exact h2
  · exact Nat.dvd_add (Nat.dvd_trans (Nat.dvd_mul_right _ _) h3) (Nat.dvd_refl _)

theorem Inv.skip {n k v q N : Nat} (h : Inv n (k + 1) v q N) (hv : v < 2 * q + 2 ^ k) : Inv n k (2 * v) q N := by
  obtain ⟨h1, h2, h3, h4⟩ := h
  rw [Nat.pow_succ] at *
  have hp : 0 < 2 ^ k := by positivity
  refine ⟨?_, ?_, Nat.dvd_trans (Nat.dvd_mul_right _ _) h3, by omega⟩
  · rw [← h1]; ring
  · have : v * 2 ^ k < (2 * q + 2 ^ k) * 2 ^ k := Nat.mul_lt_mul_of_pos_right hv hp
    generalize 2 ^ k = p at *
    nlinarith

theorem Inv.start {M : Nat} (n : Nat) (h : M * 2 ^ n < 2 ^ (n + n)) : Inv n n (2 * M) 0 (M * 2 ^ n) :=
  ⟨by ring, by rw [Nat.zero_add, ← Nat.pow_mul, Nat.mul_two]; exact h, Nat.dvd_zero _, by omega⟩

theorem i32_some {n : Nat} (h : n < 2 ^ 31) : i32 n = some n := if_pos h

theorem shr_pow (k : Nat) : 2 ^ (k + 1) >>> 1 = 2 ^ k := by
  rw [Nat.shiftRight_eq_div_pow, Nat.pow_succ, Nat.pow_one, Nat.mul_div_cancel _ (by omega)]

/-- The loop of sqrtf. -/
theorem rootLoop_spec {N : Nat} : ∀ (k n v q : Nat), Inv 25 (k + 1) v q N → k + 2 ≤ n →
    ∃ v' q', rootLoop n v (2 * q) q (2 ^ k) = some (v', q') ∧ Inv 25 0 v' q' N := by
  intro k
  induction k with
  | zero =>
    intro n v q h hn
    obtain ⟨n, rfl⟩ : ∃ m, n = m + 2 := ⟨n - 2, by omega⟩
    have hl := h.le
    have hb := h.bound
    norm_num at hl hb
    rw [rootLoop, if_neg (by decide), i32_some (by norm_num; omega), Option.bind_some]
    by_cases hv : 2 * q + 2 ^ 0 ≤ v
    · have := h.take hv
      have hb := this.bound
      norm_num at hb
      rw [if_pos hv, i32_some (by norm_num; omega), Option.bind_some, i32_some (by norm_num; omega), Option.bind_some, i32_some (by norm_num; omega), Option.bind_some, rootLoop, if_pos (by decide)]
      exact ⟨_, _, rfl, by rw [← Nat.two_mul]; exact this⟩
    · have := h.skip (by omega)
      rw [if_neg hv, i32_some (by norm_num; omega), Option.bind_some, rootLoop, if_pos (by decide)]
      exact ⟨_, _, rfl, by rw [← Nat.two_mul]; exact this⟩
  | succ k ih =>
    intro n v q h hn
    obtain ⟨n, rfl⟩ : ∃ m, n = m + 1 := ⟨n - 1, by omega⟩
    have hl := h.le
    have hb := h.bound
    have hp : 0 < 2 ^ (k + 1) := by positivity
    have h2 : 2 ^ (k + 1 + 1) = 2 * 2 ^ (k + 1) := by rw [Nat.pow_succ']
    norm_num at hl hb
    rw [rootLoop, if_neg (by omega), i32_some (by norm_num; omega), Option.bind_some, shr_pow]
    by_cases hv : 2 * q + 2 ^ (k + 1) ≤ v
    · have := h.take hv
      have hb := this.bound
      norm_num at hb
      rw [if_pos hv, i32_some (by norm_num; omega), Option.bind_some, i32_some (by norm_num; omega), Option.bind_some, i32_some (by norm_num; omega), Option.bind_some]
      have := ih n _ _ this (by omega)
      rw [show 2 * (q + 2 ^ (k + 1)) = 2 * q + 2 ^ (k + 1) + 2 ^ (k + 1) by ring, Nat.two_mul (v - _)] at this
      exact this
    · have := h.skip (by omega)
      rw [if_neg hv, i32_some (by norm_num; omega), Option.bind_some]
      have := ih n _ _ this (by omega)
      rw [Nat.two_mul v] at this
      exact this

/-! ## From the integer root to the rounded root -/

/-- The integer that the code makes of the root `Q` of `N`, which has one bit more than a number has. -/
def halved (mode : Mode) (exact : Prop) [Decidable exact] (Q : Nat) : Nat :=
  if exact then Q / 2 else match mode with
    | .nearest => (Q + Q % 2) / 2
    | .up => Q / 2 + 1
    | .down => Q / 2
    | .zero => Q / 2

/-- Numbers above `h 2^e` are at least the next multiple of `2^e`. -/
theorem rep_above {a h e : Nat} (ha : Rep f a) (hh : 2 ^ f.mb ≤ h) (hlt : h * 2 ^ e < a) : (h + 1) * 2 ^ e ≤ a := by
  have h1 : 2 ^ (f.mb + e) ≤ a := by
    rw [Nat.pow_add]
    exact Nat.le_trans (Nat.mul_le_mul_right _ hh) (Nat.le_of_lt hlt)
  have h0 : a ≠ 0 := by omega
  have hd : 2 ^ e ∣ a := by
    refine Nat.dvd_trans (Nat.pow_dvd_pow _ ?_) (ulp_dvd ha)
    have := (Nat.le_log2 h0).2 h1
    omega
  obtain ⟨c, rfl⟩ := hd
  rw [Nat.mul_comm (2 ^ e)] at *
  exact Nat.mul_le_mul_right _ (Nat.lt_of_mul_lt_mul_right hlt)

/-- And below at most the one before. -/
theorem rep_below {a h e : Nat} (ha : Rep f a) (hh : 2 ^ f.mb < h) (hlt : a < h * 2 ^ e) : a ≤ (h - 1) * 2 ^ e := by
  rcases Nat.lt_or_ge a (2 ^ f.mb * 2 ^ e) with h1 | h1
  · exact Nat.le_trans (Nat.le_of_lt h1) (Nat.mul_le_mul_right _ (by omega))
  · have h0 : a ≠ 0 := by
      have : 0 < 2 ^ f.mb * 2 ^ e := by positivity
      omega
    have hd : 2 ^ e ∣ a := by
      refine Nat.dvd_trans (Nat.pow_dvd_pow _ ?_) (ulp_dvd ha)
      rw [← Nat.pow_add] at h1
      have := (Nat.le_log2 h0).2 h1
      omega
    obtain ⟨c, rfl⟩ := hd
    rw [Nat.mul_comm (2 ^ e)] at *
    have := Nat.lt_of_mul_lt_mul_right hlt
    exact Nat.mul_le_mul_right _ (by omega)

/-- A number of the exponent `e` above the least, with the significand `h`, which may have become `2^(mb+1)`. -/
theorem carry_fields (hf : f.Ok) {e h : Nat} (he : e + 2 < f.emax) (h1 : 2 ^ f.mb ≤ h) (h2 : h ≤ 2 ^ (f.mb + 1)) :
    e * 2 ^ f.mb + h < 2 ^ f.width ∧ Finite f (e * 2 ^ f.mb + h) ∧ sgn f (e * 2 ^ f.mb + h) = 0 ∧ units f (e * 2 ^ f.mb + h) = h * 2 ^ e := by
  have hem := emax_lt f
  have hp : 0 < 2 ^ f.mb := by positivity
  rw [Nat.pow_succ] at h2
  rcases Nat.lt_or_ge h (2 * 2 ^ f.mb) with hl | hl
  · have hq : e * 2 ^ f.mb + h = pack f 0 (e + 1) (h - 2 ^ f.mb) := by
      rw [pack, Nat.zero_mul, Nat.zero_add, Nat.add_mul]; omega
    rw [hq]
    have hm : h - 2 ^ f.mb < 2 ^ f.mb := by omega
    refine ⟨pack_lt (by omega) (by omega) hm, ?_, sgn_pack (by omega) hm, ?_⟩
    · rw [Finite, ex_pack (by omega) hm]; omega
    · rw [units_pack (by omega) hm, if_neg (by omega), Nat.add_sub_cancel' h1, Nat.add_sub_cancel]
  · obtain rfl : h = 2 * 2 ^ f.mb := by omega
    have hq : e * 2 ^ f.mb + 2 * 2 ^ f.mb = pack f 0 (e + 2) 0 := by rw [pack]; ring
    rw [hq]
    refine ⟨pack_lt (by omega) (by omega) hp, ?_, sgn_pack (by omega) hp, ?_⟩
    · rw [Finite, ex_pack (by omega) hp]; omega
    · rw [units_pack (by omega) hp, if_neg (by omega), show e + 2 - 1 = e + 1 by omega, Nat.pow_succ]; ring

theorem rootOf (hf : f.Ok) {x N Q c : Nat} (hN : units f x * one f = N * (2 ^ c) ^ 2) (hd : 4 ∣ N) (h1 : Q ^ 2 ≤ N) (h2 : N < (Q + 1) ^ 2)
    (h3 : 2 ^ (f.mb + 1) ≤ Q) (h4 : Q < 2 ^ (f.mb + 2)) (hc : c + 3 < f.emax) : RootOf f mode x ((c + 1) * 2 ^ f.mb + halved mode (N = Q ^ 2) Q) := by
  have hp : 0 < 2 ^ f.mb := by positivity
  have e1 : 2 ^ (f.mb + 1) = 2 * 2 ^ f.mb := by rw [Nat.pow_succ']
  have e2 : 2 ^ (f.mb + 2) = 4 * 2 ^ f.mb := by rw [Nat.pow_add]; omega
  have hC : 0 < 2 ^ c := by positivity
  have hC2 : 0 < (2 ^ c) ^ 2 := by positivity
  have hH : 2 ^ f.mb ≤ halved mode (N = Q ^ 2) Q ∧ halved mode (N = Q ^ 2) Q ≤ 2 ^ (f.mb + 1) := by
    unfold halved
    split
    · omega
    · cases mode <;> simp only <;> omega
  obtain ⟨g1, g2, g3, g4⟩ := carry_fields hf (e := c + 1) (by omega) hH.1 hH.2
  have hu : units f ((c + 1) * 2 ^ f.mb + halved mode (N = Q ^ 2) Q) = 2 * halved mode (N = Q ^ 2) Q * 2 ^ c := by rw [g4, Nat.pow_succ]; ring
  have above : ∀ v, Finite f v → units f ((c + 1) * 2 ^ f.mb + halved mode (N = Q ^ 2) Q) < units f v → (2 * halved mode (N = Q ^ 2) Q + 2) * 2 ^ c ≤ units f v := by
    intro v _ hv
    rw [g4] at hv
    have := rep_above (units_rep v) hH.1 hv
    rw [Nat.pow_succ] at this
    calc _ = _ := by ring_nf
      _ ≤ _ := this
  have below : ∀ v, Finite f v → 2 ^ f.mb < halved mode (N = Q ^ 2) Q → units f v < units f ((c + 1) * 2 ^ f.mb + halved mode (N = Q ^ 2) Q) →
      units f v ≤ (2 * halved mode (N = Q ^ 2) Q - 2) * 2 ^ c := by
    intro v _ hl hv
    rw [g4] at hv
    have := rep_below (units_rep v) hl hv
    rw [Nat.pow_succ] at this
    calc _ ≤ _ := this
      _ = _ := by rw [show 2 * halved mode (N = Q ^ 2) Q - 2 = 2 * (halved mode (N = Q ^ 2) Q - 1) by omega]; ring_nf
  by_cases hx : N = Q ^ 2
  · -- the root is exact
    have hev : Q % 2 = 0 := by
      obtain ⟨d, hd⟩ := hd
      rcases Nat.mod_two_eq_zero_or_one Q with h | h
      · exact h
      · exfalso
        have : Q ^ 2 % 2 = 1 := by rw [Nat.pow_mod, h]
        omega
    have hq : 2 * halved mode (N = Q ^ 2) Q = Q := by unfold halved; rw [if_pos hx]; omega
    have hsq : units f x * one f = units f ((c + 1) * 2 ^ f.mb + halved mode (N = Q ^ 2) Q) ^ 2 := by rw [hu, hq, hN, hx]; ring
    refine ⟨g1, g2, g3, fun _ v _ => ?_, fun _ => ?_, fun _ => ?_⟩
    · rw [hsq]
      generalize units f ((c + 1) * 2 ^ f.mb + halved mode (N = Q ^ 2) Q) = a
      constructor <;> intro h <;> nlinarith
    · rw [hsq]
      exact ⟨Nat.le_refl _, fun v _ h => Nat.pow_lt_pow_left h (by decide)⟩
    · rw [hsq]
      exact ⟨Nat.le_refl _, fun v _ h => Nat.pow_lt_pow_left h (by decide)⟩
  · have hlt : Q ^ 2 < N := by omega
    refine ⟨g1, g2, g3, fun hm => ?_, fun hm => ?_, fun hm => ?_⟩
    · subst hm
      intro v fv
      have hh : halved .nearest (N = Q ^ 2) Q = (Q + Q % 2) / 2 := by unfold halved; rw [if_neg hx]
      specialize above v fv
      specialize below v fv
      rw [hu] at above below ⊢
      rw [hh] at above below ⊢
      rcases Nat.mod_two_eq_zero_or_one Q with h | h
      · rw [show 2 * ((Q + Q % 2) / 2) = Q by omega] at *
        constructor
        · intro hv
          have : (units f v + Q * 2 ^ c) ^ 2 < (2 * (Q * 2 ^ c)) ^ 2 := Nat.pow_lt_pow_left (by omega) (by decide)
          have : (2 * (Q * 2 ^ c)) ^ 2 = 4 * (Q ^ 2 * (2 ^ c) ^ 2) := by ring
          have : Q ^ 2 * (2 ^ c) ^ 2 ≤ N * (2 ^ c) ^ 2 := Nat.mul_le_mul_right _ h1
          omega
        · intro hv
          have := above hv
          have : (2 * ((Q + 1) * 2 ^ c)) ^ 2 ≤ (units f v + Q * 2 ^ c) ^ 2 := Nat.pow_le_pow_left (by nlinarith) 2
          have : (2 * ((Q + 1) * 2 ^ c)) ^ 2 = 4 * ((Q + 1) ^ 2 * (2 ^ c) ^ 2) := by ring
          have : N * (2 ^ c) ^ 2 < (Q + 1) ^ 2 * (2 ^ c) ^ 2 := Nat.mul_lt_mul_of_pos_right h2 hC2
          omega
      · rw [show 2 * ((Q + Q % 2) / 2) = Q + 1 by omega] at *
        constructor
        · intro hv
          have := below (by omega) hv
          rw [show Q + 1 - 2 = Q - 1 by omega] at this
          have : (units f v + (Q + 1) * 2 ^ c) ^ 2 ≤ (2 * (Q * 2 ^ c)) ^ 2 := by
            refine Nat.pow_le_pow_left ?_ 2
            have : (Q - 1) * 2 ^ c + (Q + 1) * 2 ^ c = 2 * (Q * 2 ^ c) := by
              obtain ⟨t, rfl⟩ : ∃ t, Q = t + 1 := ⟨Q - 1, by omega⟩
              rw [Nat.add_sub_cancel]; ring
            omega
          have : (2 * (Q * 2 ^ c)) ^ 2 = 4 * (Q ^ 2 * (2 ^ c) ^ 2) := by ring
          have : Q ^ 2 * (2 ^ c) ^ 2 < N * (2 ^ c) ^ 2 := Nat.mul_lt_mul_of_pos_right hlt hC2
          omega
        · intro hv
          have : (2 * ((Q + 1) * 2 ^ c)) ^ 2 ≤ (units f v + (Q + 1) * 2 ^ c) ^ 2 := Nat.pow_le_pow_left (by omega) 2
          have : (2 * ((Q + 1) * 2 ^ c)) ^ 2 = 4 * ((Q + 1) ^ 2 * (2 ^ c) ^ 2) := by ring
          have : N * (2 ^ c) ^ 2 < (Q + 1) ^ 2 * (2 ^ c) ^ 2 := Nat.mul_lt_mul_of_pos_right h2 hC2
          omega
    · subst hm
      have hh : halved .up (N = Q ^ 2) Q = Q / 2 + 1 := by unfold halved; rw [if_neg hx]
      rw [hu]
      rw [hu] at below
      rw [hh] at below ⊢
      constructor
      · rw [hN]
        calc N * (2 ^ c) ^ 2 ≤ (Q + 1) ^ 2 * (2 ^ c) ^ 2 := Nat.mul_le_mul_right _ (Nat.le_of_lt h2)
          _ ≤ (2 * (Q / 2 + 1)) ^ 2 * (2 ^ c) ^ 2 := Nat.mul_le_mul_right _ (Nat.pow_le_pow_left (by omega) 2)
          _ = _ := by ring
      · intro v fv hv
        have := below v fv (by omega) hv
        have : units f v ≤ Q * 2 ^ c := Nat.le_trans this (Nat.mul_le_mul_right _ (by omega))
        calc units f v ^ 2 ≤ (Q * 2 ^ c) ^ 2 := Nat.pow_le_pow_left this 2
          _ = Q ^ 2 * (2 ^ c) ^ 2 := by ring
          _ < N * (2 ^ c) ^ 2 := Nat.mul_lt_mul_of_pos_right hlt hC2
          _ = _ := hN.symm
    · have hh : halved mode (N = Q ^ 2) Q = Q / 2 := by unfold halved; rw [if_neg hx]; rcases hm with rfl | rfl <;> rfl
      rw [hu]
      rw [hu] at above
      rw [hh] at above ⊢
      constructor
      · rw [hN]
        calc (2 * (Q / 2) * 2 ^ c) ^ 2 ≤ (Q * 2 ^ c) ^ 2 := Nat.pow_le_pow_left (Nat.mul_le_mul_right _ (by omega)) 2
          _ = Q ^ 2 * (2 ^ c) ^ 2 := by ring
          _ ≤ N * (2 ^ c) ^ 2 := Nat.mul_le_mul_right _ h1
      · intro v fv hv
        have : (Q + 1) * 2 ^ c ≤ units f v := Nat.le_trans (Nat.mul_le_mul_right _ (by omega)) (above v fv hv)
        calc units f x * one f = N * (2 ^ c) ^ 2 := hN
          _ < (Q + 1) ^ 2 * (2 ^ c) ^ 2 := Nat.mul_lt_mul_of_pos_right h2 hC2
          _ = ((Q + 1) * 2 ^ c) ^ 2 := by ring
          _ ≤ _ := Nat.pow_le_pow_left this 2

/-! ## Normalization -/

theorem scaleN (hf : f.Ok) {x ix a b c : Nat} (h : units f x * 2 ^ a = ix * 2 ^ b) (he : b + (f.bias + f.mb - 1) = f.mb + 2 + 2 * c + a) :
    units f x * one f = ix * 2 ^ (f.mb + 2) * (2 ^ c) ^ 2 := by
  refine Nat.eq_of_mul_eq_mul_right (show 0 < 2 ^ a by positivity) ?_
  calc units f x * one f * 2 ^ a = units f x * 2 ^ a * one f := by ring
    _ = ix * (2 ^ b * 2 ^ (f.bias + f.mb - 1)) := by rw [h, one]; ring
    _ = ix * 2 ^ (f.mb + 2 + 2 * c + a) := by rw [← Nat.pow_add, he]
    _ = _ := by rw [Nat.pow_add, Nat.pow_add, Nat.pow_mul' 2 2 c]; ring

theorem and_bit {y k : Nat} (h : y < 2 ^ (k + 1)) : y &&& 2 ^ k = 0 ↔ y < 2 ^ k := by
  constructor
  · intro h0
    by_contra hc
    have h1 := congrArg (Nat.testBit · k) h0
    simp only [Nat.testBit_and, Nat.testBit_two_pow_self, Bool.and_true, Nat.zero_testBit] at h1
    rw [Nat.testBit_eq_decide_div_mod_eq] at h1
    rw [Nat.pow_succ] at h
    have : y / 2 ^ k = 1 := Nat.div_eq_of_lt_le (by omega) (by omega)
    rw [this] at h1
    simp at h1
  · intro hl
    refine Nat.eq_of_testBit_eq fun i => ?_
    rw [Nat.testBit_and, Nat.testBit_two_pow, Nat.zero_testBit]
    by_cases hi : k = i
    · rw [← hi, Nat.testBit_lt_two_pow hl, Bool.false_and]
    · simp [hi]

theorem shiftLoop_spec {k : Nat} (hk : k ≤ 29) : ∀ (n y i : Nat), 0 < y → y < 2 ^ (k + 1) → 2 ^ (k + 1) ≤ y * 2 ^ n →
    ∃ j, shiftLoop (2 ^ k) n y i = some (y * 2 ^ j, i + j) ∧ 2 ^ k ≤ y * 2 ^ j ∧ y * 2 ^ j < 2 ^ (k + 1) := by
  intro n
  induction n with
  | zero =>
    intro y i h0 h1 h2
    rw [Nat.pow_zero, Nat.mul_one] at h2
    omega
  | succ n ih =>
    intro y i h0 h1 h2
    have hle : 2 ^ (k + 1) ≤ 2 ^ 30 := Nat.pow_le_pow_right (by omega) (by omega)
    rw [shiftLoop]
    by_cases hb : y < 2 ^ k
    · rw [if_pos ((and_bit h1).2 hb), i32_some, Option.bind_some]
      · obtain ⟨j, j1, j2, j3⟩ := ih (y <<< 1) (i + 1) (by rw [Nat.shiftLeft_eq]; omega) (by rw [Nat.shiftLeft_eq, Nat.pow_succ]; omega)
          (by rw [Nat.shiftLeft_eq, Nat.mul_assoc, ← Nat.pow_add, Nat.add_comm 1]; exact h2)
        have e : y <<< 1 * 2 ^ j = y * 2 ^ (j + 1) := by rw [Nat.shiftLeft_eq, Nat.mul_assoc, ← Nat.pow_add, Nat.add_comm 1]
        rw [e] at j1 j2 j3
        exact ⟨j + 1, by rw [j1]; congr 2; omega, j2, j3⟩
      · rw [Nat.shiftLeft_eq]; omega
    · rw [if_neg (by rw [and_bit h1]; exact hb)]
      exact ⟨0, by simp, by simp; omega, by simpa using h1⟩

theorem set_bit (y k : Nat) : (y &&& (2 ^ k - 1)) ||| 2 ^ k = 2 ^ k + y % 2 ^ k := by
  rw [Nat.and_two_pow_sub_one_eq_mod, Nat.or_comm]
  have := Nat.two_pow_add_eq_or_of_lt (i := k) (b := y % 2 ^ k) (Nat.mod_lt _ (by positivity)) 1
  rw [Nat.mul_one] at this
  exact this.symm

/-- What the code makes of `x`: a significand with its bits at the top, and an exponent. -/
structure Normal (f : Fmt) (x ix : Nat) (m : Int) : Prop where
  lo : 2 ^ f.mb ≤ ix
  hi : ix < 2 ^ (f.mb + 1)
  eq : ∃ a b : Nat, units f x * 2 ^ a = ix * 2 ^ b ∧ (b : Int) - a = m - 1
  least : -(f.mb : Int) ≤ m
  most : m < f.emax

/-- After the exponent has been made even. -/
theorem Normal.even (hf : f.Ok) {x ix : Nat} {m : Int} (h : Normal f x ix m) (hw : f.mb + 8 ≤ f.bias) :
    ∃ c : Nat, (c : Int) + 2 = (m - f.bias) / 2 + f.bias ∧ c + 3 < f.emax ∧
      units f x * one f = (if (m - f.bias) % 2 = 1 then 2 * ix else ix) * 2 ^ (f.mb + 2) * (2 ^ c) ^ 2 := by
  obtain ⟨h1, h2, ⟨a, b, h3, h4⟩, h5, h6⟩ := h
  have hE := hf.emax_eq
  refine ⟨((m - f.bias) / 2 + f.bias - 2).toNat, by omega, by omega, ?_⟩
  split
  · refine scaleN hf (a := a + 1) (b := b) ?_ (by omega)
    rw [Nat.pow_succ, ← Nat.mul_assoc, h3]; ring
  · exact scaleN hf h3 (by omega)

theorem normF {u : Nat} (h0 : 0 < u) (h1 : u < 2 ^ 31) (hfin : Finite float u) :
    ∃ ix m, (if u >>> 23 = 0 then (shiftLoop 0x800000 33 u 0).map fun p => (p.1, (u >>> 23 : Nat) - ((p.2 : Int) - 1)) else some (u, ((u >>> 23 : Nat) : Int))) = some (ix, m) ∧
      Normal float u ((ix &&& 0x7fffff) ||| 0x800000) m := by
  have hex : ex float u = u >>> 23 := by
    rw [ex_eq, Nat.shiftRight_eq_div_pow]
    exact Nat.mod_eq_of_lt (by simp only; omega)
  have hset : ∀ y : Nat, (y &&& 0x7fffff) ||| 0x800000 = 2 ^ 23 + y % 2 ^ 23 := fun y => set_bit y 23
  have hE : float.emax = 255 := by decide
  unfold Finite at hfin
  rw [hE, hex] at hfin
  have hd : u >>> 23 = u / 8388608 := by rw [Nat.shiftRight_eq_div_pow]
  by_cases hz : u >>> 23 = 0
  · rw [if_pos hz]
    have hu : units float u = u := by
      rw [units_sub (by rw [hex, hz]), man]
      exact Nat.mod_eq_of_lt (by simp only; omega)
    obtain ⟨j, j1, j2, j3⟩ := shiftLoop_spec (k := 23) (by decide) 33 u 0 h0 (by omega) (by omega)
    rw [show (0x800000 : Nat) = 2 ^ 23 from rfl, j1, Option.map_some]
    refine ⟨_, _, rfl, ?_, ?_, ⟨j, 0, ?_, by omega⟩, ?_, ?_⟩
    · rw [← show (0x800000 : Nat) = 2 ^ 23 from rfl, hset]; simp only; omega
    · rw [← show (0x800000 : Nat) = 2 ^ 23 from rfl, hset]; simp only; omega
    · rw [← show (0x800000 : Nat) = 2 ^ 23 from rfl, hset, hu, Nat.pow_zero, Nat.mul_one]
      simp only
      omega
    · have : j < 24 := by
        by_contra hc
        have : 2 ^ 24 ≤ 2 ^ j := Nat.pow_le_pow_right (by omega) (by omega)
        have : 2 ^ j ≤ u * 2 ^ j := Nat.le_mul_of_pos_left _ h0
        omega
      simp only
      omega
    · rw [hE]; omega
  · rw [if_neg hz]
    refine ⟨_, _, rfl, ?_, ?_, ⟨0, ex float u - 1, ?_, by rw [hex]; omega⟩, ?_, ?_⟩
    · rw [hset]; simp only; omega
    · rw [hset]; simp only; omega
    · rw [hset, units, if_neg (by rw [hex]; exact hz), man, Nat.pow_zero, Nat.mul_one]
    · simp only; omega
    · rw [hE]; omega

theorem tiny_float : tinyTest float mode 0x0da24260 = (decide (mode = .nearest ∨ mode = .up), decide (mode = .up)) := by cases mode <;> decide +kernel
theorem tiny_double : tinyTest double mode 0x01a56e1fc2f8f359 = (decide (mode = .nearest ∨ mode = .up), decide (mode = .up)) := by cases mode <;> decide +kernel

theorem Inv.done {n v q N : Nat} (h : Inv n 0 v q N) : q ^ 2 ≤ N ∧ N < (q + 1) ^ 2 ∧ (v = 0 ↔ N = q ^ 2) ∧ q < 2 ^ n := by
  obtain ⟨h1, h2, h3, h4⟩ := h
  rw [Nat.pow_zero] at *
  rw [Nat.mul_one] at h1
  refine ⟨by omega, h2, by omega, by omega⟩

theorem root_ge {N q k : Nat} (h : (2 ^ k) ^ 2 ≤ N) (h2 : N < (q + 1) ^ 2) : 2 ^ k ≤ q := by
  by_contra hc
  have : (q + 1) ^ 2 ≤ (2 ^ k) ^ 2 := Nat.pow_le_pow_left (by omega) 2
  omega

/-- **sqrtf** returns the correctly rounded square root of every positive finite number, in every mode. -/
theorem sqrtf_spec {u : Nat} (hu : u < 2 ^ 32) (hfin : Finite float u) (hs : sgn float u = 0) (h0 : units float u ≠ 0) :
    ∃ r, sqrtf mode u = some (.bits r) ∧ RootOf float mode u r := by
  have hpos : 0 < u := by
    rcases Nat.eq_zero_or_pos u with h | h
    · exact absurd (by rw [h]; decide) h0
    · exact h
  have hlt : u < 2 ^ 31 := by
    rw [sgn, Nat.shiftRight_eq_div_pow] at hs
    have : u / 2 ^ 31 = 0 := hs
    omega
  have hex : ex float u = u / 2 ^ 23 := by
    rw [ex_eq]
    exact Nat.mod_eq_of_lt (by simp only; omega)
  have hE : float.emax = 255 := by decide
  have hne : ¬u &&& 0x7f800000 = 0x7f800000 := by
    intro hc
    have := congrArg (· >>> 23) hc
    simp only [Nat.shiftRight_and_distrib] at this
    rw [show (0x7f800000 >>> 23 : Nat) = 2 ^ 8 - 1 by decide] at this
    exact hfin this
  unfold sqrtf
  rw [if_neg hne, if_neg (by omega)]
  obtain ⟨ix, m, n1, n2⟩ := normF hpos hlt hfin
  rw [n1, Option.bind_some]
  simp only
  generalize (ix &&& 0x7fffff) ||| 0x800000 = X at *
  obtain ⟨c, c1, c2, c3⟩ := n2.even float_ok (by decide)
  have hlo := n2.lo
  have hhi := n2.hi
  rw [show ((float.bias : Nat) : Int) = 127 by decide] at c1 c3
  have hM : (if (m - 127) % 2 = 1 then X + X else X) = if (m - 127) % 2 = 1 then 2 * X else X := by split <;> omega
  rw [hM]
  generalize hMM : (if (m - 127) % 2 = 1 then 2 * X else X) = M at *
  have hMlo : 2 ^ 23 ≤ M := by rw [← hMM]; split <;> (simp only at hlo; omega)
  have hMhi : M < 2 ^ 25 := by rw [← hMM]; split <;> (simp only at hhi; omega)
  obtain ⟨v, q, q1, q2⟩ := rootLoop_spec (N := M * 2 ^ 25) 24 33 (2 * M) 0 (Inv.start 25 (by omega)) (by decide)
  rw [Nat.mul_zero, ← show (0x1000000 : Nat) = 2 ^ 24 from rfl, Nat.two_mul] at q1
  rw [q1, Option.map_some, tiny_float]
  simp only [decide_eq_true_eq]
  obtain ⟨d1, d2, d3, d4⟩ := q2.done
  have d5 : 2 ^ 24 ≤ q := root_ge (k := 24) (by omega) d2
  have key := rootOf (f := float) (mode := mode) float_ok (x := u) (c := c) c3 ⟨M * 2 ^ 23, by simp only; omega⟩ d1 d2 d5 d4 c2
  refine ⟨_, rfl, ?_⟩
  have hH : (if v ≠ 0 ∧ (mode = .nearest ∨ mode = .up) then (if mode = .up then q + 2 else q + (q &&& 1)) else q) >>> 1 = halved mode (M * 2 ^ 25 = q ^ 2) q := by
    rw [Nat.shiftRight_eq_div_pow, Nat.pow_one]
    unfold halved
    by_cases hv : v = 0
    · rw [if_neg (by simp [hv]), if_pos (d3.1 hv)]
    · rw [if_neg (fun h => hv (d3.2 h))]
      cases mode
      · rw [if_pos ⟨hv, .inl rfl⟩, if_neg (by decide), Nat.and_one_is_mod]
      · rw [if_pos ⟨hv, .inr rfl⟩, if_pos rfl]
        simp only; omega
      · rw [if_neg (by simp)]
      · rw [if_neg (by simp)]
  rw [hH]
  have : (((halved mode (M * 2 ^ 25 = q ^ 2) q : Nat) : Int) + 0x3f000000 + (m - 127) / 2 * 2 ^ 23).toNat = (c + 1) * 2 ^ 23 + halved mode (M * 2 ^ 25 = q ^ 2) q := by omega
  rw [this]
  exact key

/-! ## Two words -/

theorem top_bit {y : Nat} (h : y < 2 ^ 32) : y &&& 0x80000000 = if y < 2 ^ 31 then 0 else 2 ^ 31 := by
  split
  · rename_i hl
    exact (and_bit (k := 31) (by omega)).2 hl
  · rename_i hl
    obtain ⟨z, rfl⟩ : ∃ z, y = 2 ^ 31 * 1 + z := ⟨y - 2 ^ 31, by omega⟩
    have hz : z < 2 ^ 31 := by omega
    rw [Nat.two_pow_add_eq_or_of_lt hz 1, Nat.and_or_distrib_right, show (0x80000000 : Nat) = 2 ^ 31 from rfl, (and_bit (k := 31) (by omega)).2 hz]
    decide

theorem twoWords_spec {ix0 ix1 : Nat} (h1 : ix1 < 2 ^ 32) (h2 : 2 * (ix0 * 2 ^ 32 + ix1) < 2 ^ 63) :
    ∃ j0 j1, twoWords ix0 ix1 = some (j0, j1) ∧ j1 < 2 ^ 32 ∧ j0 * 2 ^ 32 + j1 = 2 * (ix0 * 2 ^ 32 + ix1) := by
  have hb : (ix1 &&& 0x80000000) >>> 31 = ix1 / 2 ^ 31 := by
    rw [top_bit h1, Nat.shiftRight_eq_div_pow]
    split <;> omega
  unfold twoWords
  rw [hb, i32_some (by omega), Option.map_some]
  exact ⟨_, _, rfl, by omega, by omega⟩

theorem highLoop_spec {N : Nat} : ∀ (k n ix0 ix1 q : Nat), Inv 54 (k + 1 + 32) (ix0 * 2 ^ 32 + ix1) (q * 2 ^ 32) N → ix1 < 2 ^ 32 → k + 2 ≤ n →
    ∃ j0 j1 q', highLoop n ix0 ix1 (2 * q) q (2 ^ k) = some (j0, j1, 2 * q', q') ∧ j1 < 2 ^ 32 ∧ Inv 54 32 (j0 * 2 ^ 32 + j1) (q' * 2 ^ 32) N := by
  have step : ∀ (k n ix0 ix1 q : Nat), Inv 54 (k + 32 + 1) (ix0 * 2 ^ 32 + ix1) (q * 2 ^ 32) N → ix1 < 2 ^ 32 →
      ∃ j0 j1 q', highLoop (n + 1) ix0 ix1 (2 * q) q (2 ^ k) = highLoop n j0 j1 (2 * q') q' (2 ^ k >>> 1) ∧ j1 < 2 ^ 32 ∧ Inv 54 (k + 32) (j0 * 2 ^ 32 + j1) (q' * 2 ^ 32) N := by
    intro k n ix0 ix1 q h h1
    have hl := h.le
    have hp : 0 < 2 ^ k := by positivity
    have e : 2 ^ (k + 32 + 1) = 2 * (2 ^ k * 2 ^ 32) := by rw [Nat.pow_succ', Nat.pow_add]
    have e' : 2 ^ (k + 32) = 2 ^ k * 2 ^ 32 := by rw [Nat.pow_add]
    rw [e] at hl
    rw [highLoop, if_neg (by omega), i32_some (by omega), Option.bind_some]
    by_cases hv : 2 * q + 2 ^ k ≤ ix0
    · have ht := h.take (by rw [e']; omega)
      have hb := ht.bound
      rw [e'] at ht hb
      have hsub : ix0 * 2 ^ 32 + ix1 - (2 * (q * 2 ^ 32) + 2 ^ k * 2 ^ 32) = (ix0 - (2 * q + 2 ^ k)) * 2 ^ 32 + ix1 := by omega
      rw [hsub] at ht hb
      obtain ⟨j0, j1, t1, t2, t3⟩ := twoWords_spec (ix0 := ix0 - (2 * q + 2 ^ k)) h1 (by omega)
      rw [if_pos hv, i32_some (by omega), Option.bind_some, i32_some (by omega), Option.bind_some, t1, Option.bind_some]
      refine ⟨j0, j1, q + 2 ^ k, by rw [show 2 * (q + 2 ^ k) = 2 * q + 2 ^ k + 2 ^ k by ring], t2, ?_⟩
      rw [t3, Nat.add_mul]
      exact ht
    · have ht := h.skip (by rw [e']; omega)
      have hb := ht.bound
      obtain ⟨j0, j1, t1, t2, t3⟩ := twoWords_spec (ix0 := ix0) h1 (by omega)
      rw [if_neg hv, t1, Option.bind_some]
      exact ⟨j0, j1, q, rfl, t2, by rw [t3]; exact ht⟩
  intro k
  induction k with
  | zero =>
    intro n ix0 ix1 q h h1 hn
    obtain ⟨n, rfl⟩ : ∃ m, n = m + 2 := ⟨n - 2, by omega⟩
    obtain ⟨j0, j1, q', e1, e2, e3⟩ := step 0 (n + 1) ix0 ix1 q h h1
    exact ⟨j0, j1, q', by rw [e1, highLoop, if_pos (by decide)], e2, e3⟩
  | succ k ih =>
    intro n ix0 ix1 q h h1 hn
    obtain ⟨n, rfl⟩ : ∃ m, n = m + 1 := ⟨n - 1, by omega⟩
    obtain ⟨j0, j1, q', e1, e2, e3⟩ := step (k + 1) n ix0 ix1 q (by rw [show k + 1 + 32 + 1 = k + 1 + 1 + 32 by omega]; exact h) h1
    rw [e1, shr_pow]
    exact ih n j0 j1 q' e3 e2 (by omega)

theorem borrow {ix0 ix1 s0 t1 : Nat} (h1 : ix1 < 2 ^ 32) (ht : t1 < 2 ^ 32) (hv : s0 < ix0 ∨ (s0 = ix0 ∧ t1 ≤ ix1)) :
    (if ix1 < t1 then ix0 - s0 - 1 else ix0 - s0) * 2 ^ 32 + (ix1 + 2 ^ 32 - t1) % 2 ^ 32 = ix0 * 2 ^ 32 + ix1 - (s0 * 2 ^ 32 + t1) := by
  split <;> omega

theorem carryWord {s0 s1 k : Nat} (hp : 0 < 2 ^ k) (h : (k = 31 ∧ s1 = 0) ∨ s1 + 4 * 2 ^ k ≤ 2 ^ 32) :
    (if (s1 + 2 ^ k) &&& 0x80000000 = 0x80000000 ∧ (s1 + 2 ^ k + 2 ^ k) % 2 ^ 32 &&& 0x80000000 = 0 then s0 + 1 else s0) * 2 ^ 32 + (s1 + 2 ^ k + 2 ^ k) % 2 ^ 32 =
      s0 * 2 ^ 32 + s1 + 2 * 2 ^ k := by
  rcases h with ⟨rfl, rfl⟩ | h
  · have e0 : (0 + 2 ^ 31 + 2 ^ 31) % 2 ^ 32 = 0 := by decide
    rw [e0, if_pos ⟨by decide, by decide⟩]
    omega
  · generalize 2 ^ k = p at *
    have e0 : (s1 + p + p) % 2 ^ 32 = s1 + p + p := Nat.mod_eq_of_lt (by omega)
    rw [e0, top_bit (by omega), top_bit (by omega), if_neg (by split <;> split <;> omega)]
    omega

theorem lowLoop_step {N k n ix0 ix1 s0 s1 q q1 : Nat} (hk : k ≤ 31) (h : Inv 54 (k + 1) (ix0 * 2 ^ 32 + ix1) (q * 2 ^ 32 + q1) N) (h1 : ix1 < 2 ^ 32) (hs1 : s1 < 2 ^ 32)
    (hq : q1 < 2 ^ 32) (hs : s0 * 2 ^ 32 + s1 = 2 * (q * 2 ^ 32 + q1)) :
    ∃ j0 j1 t0 t1 q1', lowLoop (n + 1) ix0 ix1 s0 s1 q1 (2 ^ k) = lowLoop n j0 j1 t0 t1 q1' (2 ^ k >>> 1) ∧ j1 < 2 ^ 32 ∧ t1 < 2 ^ 32 ∧ q1' < 2 ^ 32 ∧
      t0 * 2 ^ 32 + t1 = 2 * (q * 2 ^ 32 + q1') ∧ Inv 54 k (j0 * 2 ^ 32 + j1) (q * 2 ^ 32 + q1') N := by
  have hp : 0 < 2 ^ k := by positivity
  have hle := h.le
  have hpk : 2 ^ (k + 1) = 2 * 2 ^ k := by rw [Nat.pow_succ']
  have hp31 : 2 ^ k ≤ 2 ^ 31 := Nat.pow_le_pow_right (by omega) hk
  -- the low word of twice the root has room for two more bits
  have hq1 : q1 + 2 * 2 ^ k ≤ 2 ^ 32 := by
    have hd : 2 ^ (k + 1) ∣ q1 := (Nat.dvd_add_right (Nat.dvd_mul_left_of_dvd (Nat.pow_dvd_pow 2 (by omega : k + 1 ≤ 32)) q)).1 h.dvd
    obtain ⟨a, rfl⟩ := hd
    have e : 2 ^ 32 = 2 ^ (k + 1) * 2 ^ (31 - k) := by rw [← Nat.pow_add]; congr 1; omega
    rw [e] at hq ⊢
    have := Nat.lt_of_mul_lt_mul_left hq
    rw [← hpk]
    calc 2 ^ (k + 1) * a + 2 ^ (k + 1) = 2 ^ (k + 1) * (a + 1) := by ring
      _ ≤ _ := Nat.mul_le_mul_left _ this
  have hroom : (k = 31 ∧ s1 = 0) ∨ s1 + 4 * 2 ^ k ≤ 2 ^ 32 := by
    rcases Nat.lt_or_ge k 31 with hk' | hk'
    · right
      have hd : 2 ^ (k + 2) ∣ s1 := by
        have h2 : 2 ^ (k + 2) ∣ s0 * 2 ^ 32 + s1 := by
          rw [hs, show k + 2 = (k + 1) + 1 by omega, Nat.pow_succ']
          exact Nat.mul_dvd_mul_left _ h.dvd
        exact (Nat.dvd_add_right (Nat.dvd_mul_left_of_dvd (Nat.pow_dvd_pow 2 (by omega : k + 2 ≤ 32)) s0)).1 h2
      obtain ⟨a, rfl⟩ := hd
      have e : 2 ^ 32 = 2 ^ (k + 2) * 2 ^ (30 - k) := by rw [← Nat.pow_add]; congr 1; omega
      rw [e] at hs1 ⊢
      have := Nat.lt_of_mul_lt_mul_left hs1
      calc 2 ^ (k + 2) * a + 4 * 2 ^ k = 2 ^ (k + 2) * (a + 1) := by rw [Nat.pow_add]; ring
        _ ≤ _ := Nat.mul_le_mul_left _ this
    · left
      obtain rfl : k = 31 := by omega
      omega
  rw [lowLoop, if_neg (by omega)]
  simp only
  have ht1 : (s1 + 2 ^ k) % 2 ^ 32 = s1 + 2 ^ k := Nat.mod_eq_of_lt (by omega)
  rw [ht1]
  by_cases hv : s0 < ix0 ∨ (s0 = ix0 ∧ s1 + 2 ^ k ≤ ix1)
  · rw [if_pos hv]
    have ht := h.take (by omega)
    have hb := ht.bound
    have a3 : (ix1 + 2 ^ 32 - (s1 + 2 ^ k)) % 2 ^ 32 < 2 ^ 32 := Nat.mod_lt _ (by norm_num)
    have a4 := borrow h1 (show s1 + 2 ^ k < 2 ^ 32 by omega) hv
    rw [← Nat.add_assoc (s0 * 2 ^ 32), hs] at a4
    generalize (if ix1 < s1 + 2 ^ k then ix0 - s0 - 1 else ix0 - s0) = r0 at *
    generalize (ix1 + 2 ^ 32 - (s1 + 2 ^ k)) % 2 ^ 32 = r1 at *
    rw [← a4] at ht hb
    obtain ⟨j0, j1, t1, t2, t3⟩ := twoWords_spec (ix0 := r0) a3 (by omega)
    rw [t1, Option.bind_some]
    rw [← t3] at ht
    have hq1' : (q1 + 2 ^ k) % 2 ^ 32 = q1 + 2 ^ k := Nat.mod_eq_of_lt (by omega)
    rw [hq1']
    refine ⟨j0, j1, _, _, _, rfl, t2, Nat.mod_lt _ (by decide), by omega, ?_, by rw [← Nat.add_assoc]; exact ht⟩
    rw [carryWord hp hroom, hs]
    ring
  · rw [if_neg hv]
    have ht := h.skip (by omega)
    have hb := ht.bound
    obtain ⟨j0, j1, t1, t2, t3⟩ := twoWords_spec (ix0 := ix0) h1 (by omega)
    rw [t1, Option.bind_some]
    exact ⟨j0, j1, s0, s1, q1, rfl, t2, hs1, hq, hs, by rw [t3]; exact ht⟩

theorem lowLoop_spec {N q : Nat} : ∀ (k n ix0 ix1 s0 s1 q1 : Nat), k ≤ 31 → Inv 54 (k + 1) (ix0 * 2 ^ 32 + ix1) (q * 2 ^ 32 + q1) N → ix1 < 2 ^ 32 → s1 < 2 ^ 32 → q1 < 2 ^ 32 →
    s0 * 2 ^ 32 + s1 = 2 * (q * 2 ^ 32 + q1) → k + 2 ≤ n →
    ∃ j0 j1 q1', lowLoop n ix0 ix1 s0 s1 q1 (2 ^ k) = some (j0, j1, q1') ∧ j1 < 2 ^ 32 ∧ q1' < 2 ^ 32 ∧ Inv 54 0 (j0 * 2 ^ 32 + j1) (q * 2 ^ 32 + q1') N := by
  intro k
  induction k with
  | zero =>
    intro n ix0 ix1 s0 s1 q1 hk h h1 h2 h3 h4 hn
    obtain ⟨n, rfl⟩ : ∃ m, n = m + 2 := ⟨n - 2, by omega⟩
    obtain ⟨j0, j1, t0, t1, q1', e1, e2, e3, e4, e5, e6⟩ := lowLoop_step (n := n + 1) hk h h1 h2 h3 h4
    exact ⟨j0, j1, q1', by rw [e1, lowLoop, if_pos (by decide)], e2, e4, e6⟩
  | succ k ih =>
    intro n ix0 ix1 s0 s1 q1 hk h h1 h2 h3 h4 hn
    obtain ⟨n, rfl⟩ : ∃ m, n = m + 1 := ⟨n - 1, by omega⟩
    obtain ⟨j0, j1, t0, t1, q1', e1, e2, e3, e4, e5, e6⟩ := lowLoop_step (n := n) hk h h1 h2 h3 h4
    rw [e1, shr_pow]
    exact ih n j0 j1 t0 t1 q1' (by omega) e6 e2 e3 e4 e5 (by omega)

/-- The first part of the normalization of a subnormal double. -/
theorem liftLoop_spec {u : Nat} (h0 : 0 < u) (h1 : u < 2 ^ 52) :
    ∃ y0 y1 t : Nat, liftLoop 3 (u >>> 32) (u % 2 ^ 32) 0 = some (y0, y1, -(t : Int)) ∧ 0 < y0 ∧ y0 < 2 ^ 21 ∧ y1 < 2 ^ 32 ∧ y0 * 2 ^ 32 + y1 = u * 2 ^ t ∧
      (t = 0 → y0 < 2 ^ 20) ∧ (t ≠ 0 → y1 % 2 ^ 21 = 0) ∧ t ≤ 42 := by
  have hd : u >>> 32 = u / 2 ^ 32 := Nat.shiftRight_eq_div_pow _ _
  rw [hd, liftLoop]
  by_cases ha : u / 2 ^ 32 = 0
  · rw [if_pos ha, liftLoop, Nat.shiftRight_eq_div_pow, Nat.shiftLeft_eq]
    have hm : u % 2 ^ 32 = u := Nat.mod_eq_of_lt (by omega)
    rw [hm]
    by_cases hb : u / 2 ^ 11 = 0
    · have e1 : u * 2 ^ 21 % 2 ^ 32 = u * 2 ^ 21 := Nat.mod_eq_of_lt (by omega)
      rw [if_pos hb, liftLoop, e1, Nat.shiftRight_eq_div_pow, Nat.shiftLeft_eq, if_neg (by omega)]
      exact ⟨_, _, 42, rfl, by omega, by omega, by omega, by omega, by omega, by omega, by omega⟩
    · rw [if_neg hb]
      exact ⟨_, _, 21, rfl, by omega, by omega, by omega, by omega, by omega, by omega, by omega⟩
  · rw [if_neg ha]
    exact ⟨_, _, 0, rfl, by omega, by omega, by omega, by omega, by omega, by omega, by omega⟩

/-- A word moved up by `j` bits, with the bits of the next one. -/
theorem joined {y0 y1 j : Nat} (hj : j ≤ 32) (h1 : y1 < 2 ^ 32) :
    (y0 * 2 ^ j + y1 / 2 ^ (32 - j)) * 2 ^ 32 + y1 * 2 ^ j % 2 ^ 32 = (y0 * 2 ^ 32 + y1) * 2 ^ j ∧ y1 / 2 ^ (32 - j) < 2 ^ j := by
  have e : 2 ^ 32 = 2 ^ (32 - j) * 2 ^ j := by rw [← Nat.pow_add]; congr 1; omega
  have hp : 0 < 2 ^ j := by positivity
  constructor
  · have h2 : y1 * 2 ^ j / 2 ^ 32 = y1 / 2 ^ (32 - j) := by rw [e, Nat.mul_div_mul_right _ _ hp]
    have h3 := Nat.div_add_mod' (y1 * 2 ^ j) (2 ^ 32)
    rw [h2] at h3
    rw [Nat.add_mul, Nat.add_assoc, h3]; ring
  · rw [Nat.div_lt_iff_lt_mul (by positivity), Nat.mul_comm, ← e]; exact h1

theorem normD_spec {over : Nat → Res Nat} {u : Nat} (hover : ∀ y < 2 ^ 32, over y = .ok 0 ∨ over y = .ok y) (h0 : 0 < u) (h1 : u < 2 ^ 63) (hfin : Finite double u) :
    ∃ ix0 ix1 m, normD over u = some (.ok (ix0, ix1, m)) ∧ ix1 < 2 ^ 32 ∧ Normal double u (((ix0 &&& 0xfffff) ||| 0x100000) * 2 ^ 32 + ix1) m := by
  have hex : ex double u = u / 2 ^ 52 := by
    rw [ex_eq]
    exact Nat.mod_eq_of_lt (by simp only; omega)
  have hset : ∀ y : Nat, (y &&& 0xfffff) ||| 0x100000 = 2 ^ 20 + y % 2 ^ 20 := fun y => set_bit y 20
  have hE : double.emax = 2047 := by decide
  unfold Finite at hfin
  rw [hE, hex] at hfin
  have hd : u >>> 32 >>> 20 = u / 2 ^ 52 := by rw [← Nat.shiftRight_add, Nat.shiftRight_eq_div_pow]
  unfold normD
  rw [hd]
  by_cases hz : u / 2 ^ 52 = 0
  · rw [if_pos hz]
    have hu : units double u = u := by
      rw [units_sub (by rw [hex, hz]), man]
      exact Nat.mod_eq_of_lt (by simp only; omega)
    obtain ⟨y0, y1, t, l1, l2, l3, l4, l5, l6, l7, l8⟩ := liftLoop_spec h0 (by omega)
    obtain ⟨j, j1, j2, j3⟩ := shiftLoop_spec (k := 20) (by decide) 33 y0 0 l2 (by omega) (by omega)
    have j1 : shiftLoop 0x100000 33 y0 0 = some (y0 * 2 ^ j, j) := by rw [Nat.zero_add] at j1; exact j1
    have hj : j ≤ 20 := by
      by_contra hc
      have : 2 ^ 21 ≤ 2 ^ j := Nat.pow_le_pow_right (by omega) (by omega)
      have : 2 ^ j ≤ y0 * 2 ^ j := Nat.le_mul_of_pos_left _ l2
      omega
    obtain ⟨g1, g2⟩ := joined (y0 := y0) (y1 := y1) (j := j) (by omega) l4
    have hpj : 0 < 2 ^ j := by positivity
    -- the high word
    have hw : ∃ w, (if j = 0 then over y1 else .ok (y1 >>> (32 - j))) = .ok w ∧ ((y0 * 2 ^ j ||| w) &&& 0xfffff) ||| 0x100000 = y0 * 2 ^ j + y1 / 2 ^ (32 - j) := by
      by_cases hj0 : j = 0
      · subst hj0
        rw [if_pos rfl]
        rw [Nat.pow_zero, Nat.mul_one] at j2 j3 ⊢
        have ht : t ≠ 0 := fun h => by have := l6 h; omega
        have hy := l7 ht
        have hdiv : y1 / 2 ^ (32 - 0) = 0 := Nat.div_eq_of_lt l4
        rw [hdiv, Nat.add_zero]
        rcases hover y1 l4 with ho | ho
        · refine ⟨0, ho, ?_⟩
          rw [hset, Nat.or_zero]; omega
        · refine ⟨y1, ho, ?_⟩
          have : (y0 ||| y1) % 2 ^ 20 = y0 % 2 ^ 20 := by
            rw [Nat.or_mod_two_pow, show y1 % 2 ^ 20 = 0 by omega, Nat.or_zero]
          rw [hset, this]; omega
      · rw [if_neg hj0]
        refine ⟨_, rfl, ?_⟩
        rw [Nat.shiftRight_eq_div_pow]
        have hor : y0 * 2 ^ j ||| y1 / 2 ^ (32 - j) = y0 * 2 ^ j + y1 / 2 ^ (32 - j) := by
          have := Nat.two_pow_add_eq_or_of_lt g2 y0
          rw [Nat.mul_comm (2 ^ j)] at this
          exact this.symm
        have hlt : y0 * 2 ^ j + y1 / 2 ^ (32 - j) < 2 ^ 21 := by
          have e : 2 ^ (20 + 1) = 2 ^ j * 2 ^ (21 - j) := by rw [← Nat.pow_add]; congr 1; omega
          rw [e, Nat.mul_comm y0] at j3
          have := Nat.lt_of_mul_lt_mul_left j3
          have h5 : 2 ^ j * (y0 + 1) ≤ 2 ^ j * 2 ^ (21 - j) := Nat.mul_le_mul_left _ this
          rw [← e, Nat.mul_add, Nat.mul_comm _ y0] at h5
          omega
        have hge : 2 ^ 20 ≤ y0 * 2 ^ j + y1 / 2 ^ (32 - j) := Nat.le_trans j2 (Nat.le_add_right _ _)
        rw [hor, hset]
        clear hor
        generalize y0 * 2 ^ j + y1 / 2 ^ (32 - j) = z at *
        omega
    obtain ⟨w, w1, w2⟩ := hw
    have hZ : 2 ^ 20 ≤ y0 * 2 ^ j + y1 / 2 ^ (32 - j) ∧ y0 * 2 ^ j + y1 / 2 ^ (32 - j) < 2 ^ 21 := by
      have h3 := set_bit (y0 * 2 ^ j ||| w) 20
      rw [show (2 ^ 20 - 1 : Nat) = 0xfffff from rfl, show (2 ^ 20 : Nat) = 0x100000 from rfl, w2] at h3
      rw [h3]
      omega
    have hz1 : y1 * 2 ^ j % 2 ^ 32 < 2 ^ 32 := Nat.mod_lt _ (by norm_num)
    have hsum : (y0 * 2 ^ j + y1 / 2 ^ (32 - j)) * 2 ^ 32 + y1 * 2 ^ j % 2 ^ 32 = u * 2 ^ (t + j) := by rw [g1, l5, Nat.pow_add]; ring
    have htj : t + j ≤ 52 := by
      by_contra hc
      have h3 : 2 ^ 53 ≤ 2 ^ (t + j) := Nat.pow_le_pow_right (by omega) (by omega)
      have h4 : 2 ^ (t + j) ≤ u * 2 ^ (t + j) := Nat.le_mul_of_pos_left _ h0
      rw [← hsum] at h4
      generalize 2 ^ (t + j) = a at *
      generalize y0 * 2 ^ j + y1 / 2 ^ (32 - j) = z at *
      generalize y1 * 2 ^ j % 2 ^ 32 = z' at *
      omega
    rw [l1, Option.bind_some]
    simp only
    rw [j1, Option.map_some]
    simp only
    rw [w1]
    refine ⟨_, _, _, rfl, Nat.mod_lt _ (by decide), ?_, ?_, ⟨t + j, 0, ?_, by omega⟩, ?_, ?_⟩
    all_goals try rw [w2, Nat.shiftLeft_eq]
    · exact Nat.le_trans (by decide : 2 ^ double.mb ≤ 2 ^ 20 * 2 ^ 32) (Nat.le_trans (Nat.mul_le_mul_right _ hZ.1) (Nat.le_add_right _ _))
    · have h3 : (y0 * 2 ^ j + y1 / 2 ^ (32 - j) + 1) * 2 ^ 32 ≤ 2 ^ 21 * 2 ^ 32 := Nat.mul_le_mul_right _ hZ.2
      rw [Nat.add_mul, Nat.one_mul] at h3
      exact Nat.lt_of_lt_of_le (Nat.add_lt_add_left hz1 _) (Nat.le_trans h3 (by decide))
    · rw [hsum, hu, Nat.pow_zero, Nat.mul_one]
    · simp only; omega
    · rw [hE]; omega
  · rw [if_neg hz]
    have hm : u % 2 ^ 52 = (u >>> 32 % 2 ^ 20) * 2 ^ 32 + u % 2 ^ 32 := by
      rw [Nat.shiftRight_eq_div_pow]; omega
    refine ⟨_, _, _, rfl, by omega, ?_, ?_, ⟨0, ex double u - 1, ?_, by rw [hex]; omega⟩, ?_, ?_⟩
    · rw [hset]; simp only; omega
    · rw [hset]; simp only; omega
    · rw [hset, units, if_neg (by rw [hex]; exact hz), man, hm, Nat.pow_zero, Nat.mul_one]
      simp only
      congr 1
      omega
    · simp only; omega
    · rw [hE]; omega

/-- The two words of the root, after rounding. -/
theorem roundWords {mode : Mode} {v q q1 : Nat} {exact : Prop} [Decidable exact] (he : v = 0 ↔ exact) (h1 : q1 < 2 ^ 32) :
    let p := if v ≠ 0 ∧ (mode = .nearest ∨ mode = .up) then
        if q1 = 0xffffffff then (q + 1, 0)
        else if mode = .up then (if q1 = 0xfffffffe then q + 1 else q, (q1 + 2) % 2 ^ 32)
        else (q, q1 + (q1 &&& 1))
      else (q, q1)
    p.2 < 2 ^ 32 ∧ (p.1 * 2 ^ 32 + p.2) / 2 = halved mode exact (q * 2 ^ 32 + q1) := by
  unfold halved
  simp only [Nat.and_one_is_mod]
  by_cases hv : v = 0
  · rw [if_neg (by simp [hv]), if_pos (he.1 hv)]
    exact ⟨h1, rfl⟩
  · rw [if_neg (fun h => hv (he.2 h))]
    cases mode
    · rw [if_pos ⟨hv, .inl rfl⟩, if_neg (by decide : ¬(Mode.nearest = Mode.up))]
      split <;> simp only <;> omega
    · rw [if_pos ⟨hv, .inr rfl⟩, if_pos rfl]
      split
      · simp only; omega
      · split <;> simp only <;> omega
    · rw [if_neg (by simp)]
      exact ⟨h1, rfl⟩
    · rw [if_neg (by simp)]
      exact ⟨h1, rfl⟩

/-- Half of a number of two words. -/
theorem halfWords {a b : Nat} (h : b < 2 ^ 32) : (a >>> 1) * 2 ^ 32 + (if a &&& 1 ≠ 0 then (b >>> 1) ||| 0x80000000 else b >>> 1) = (a * 2 ^ 32 + b) / 2 := by
  rw [Nat.and_one_is_mod, Nat.shiftRight_eq_div_pow, Nat.shiftRight_eq_div_pow, Nat.pow_one]
  have hb : b / 2 < 2 ^ 31 := by omega
  have ho : b / 2 ||| 0x80000000 = 2 ^ 31 + b / 2 := by
    have := Nat.two_pow_add_eq_or_of_lt hb 1
    rw [Nat.mul_one] at this
    rw [this, Nat.or_comm]
  rw [ho]
  split <;> omega

theorem finishD_spec {u ix0 ix1 : Nat} {m : Int} (h1 : ix1 < 2 ^ 32) (hn : Normal double u (((ix0 &&& 0xfffff) ||| 0x100000) * 2 ^ 32 + ix1) m) :
    ∃ r, finishD mode ix0 ix1 m = some (.bits r) ∧ RootOf double mode u r := by
  unfold finishD
  simp only
  generalize (ix0 &&& 0xfffff) ||| 0x100000 = X at *
  obtain ⟨c, c1, c2, c3⟩ := hn.even double_ok (by decide)
  have hlo := hn.lo
  have hhi := hn.hi
  rw [show ((double.bias : Nat) : Int) = 1023 by decide] at c1 c3
  have hA : ∃ a0 a1, (if (m - 1023) % 2 = 1 then twoWords X ix1 else some (X, ix1)) = some (a0, a1) ∧ a1 < 2 ^ 32 ∧
      a0 * 2 ^ 32 + a1 = if (m - 1023) % 2 = 1 then 2 * (X * 2 ^ 32 + ix1) else X * 2 ^ 32 + ix1 := by
    split
    · exact twoWords_spec h1 (by simp only at hhi; omega)
    · exact ⟨X, ix1, rfl, h1, rfl⟩
  obtain ⟨a0, a1, a2, a3, a4⟩ := hA
  rw [a2, Option.bind_some]
  simp only
  rw [← a4] at c3
  have hMlo : 2 ^ 52 ≤ a0 * 2 ^ 32 + a1 := by rw [a4]; split <;> (simp only at hlo; omega)
  have hMhi : a0 * 2 ^ 32 + a1 < 2 ^ 54 := by rw [a4]; split <;> (simp only at hhi; omega)
  obtain ⟨b0, b1, b2, b3, b4⟩ := twoWords_spec (ix0 := a0) a3 (by omega)
  rw [b2, Option.bind_some]
  simp only
  obtain ⟨M, hM⟩ : ∃ M, a0 * 2 ^ 32 + a1 = M := ⟨_, rfl⟩
  rw [hM] at c3 hMlo hMhi b4
  have hstart := Inv.start (M := M) 54 (by clear * - hMhi; omega)
  rw [← b4] at hstart
  obtain ⟨j0, j1, q, q1, q2, q3⟩ := highLoop_spec (N := M * 2 ^ 54) 21 33 b0 b1 0 (by rw [Nat.zero_mul]; exact hstart) b3 (by decide)
  rw [Nat.mul_zero, ← show (0x200000 : Nat) = 2 ^ 21 from rfl] at q1
  rw [q1, Option.bind_some]
  simp only
  obtain ⟨k0, k1, r1, g1, g2, g3, g4⟩ := lowLoop_spec (N := M * 2 ^ 54) (q := q) 31 33 j0 j1 (2 * q) 0 0 (by norm_num) ((congrArg (fun z => Inv 54 32 (j0 * 2 ^ 32 + j1) z (M * 2 ^ 54)) (Nat.add_zero (q * 2 ^ 32))).mpr q3) q2 (by norm_num) (by norm_num) (by clear * -; omega) (by norm_num)
  rw [← show (0x80000000 : Nat) = 2 ^ 31 from rfl] at g1
  rw [g1, Option.map_some, tiny_double]
  simp only [decide_eq_true_eq]
  obtain ⟨d1, d2, d3, d4⟩ := g4.done
  have d5 : 2 ^ 53 ≤ q * 2 ^ 32 + r1 := root_ge (k := 53) (by clear * - hMlo; omega) d2
  have key := rootOf (f := double) (mode := mode) double_ok (x := u) (c := c) c3 ⟨M * 2 ^ 52, by clear * -; simp only; omega⟩ d1 d2 d5 d4 c2
  have hor : k0 ||| k1 = 0 ↔ M * 2 ^ 54 = (q * 2 ^ 32 + r1) ^ 2 := by
    rw [← d3, Nat.or_eq_zero_iff]; clear * -; omega
  have hr := roundWords (mode := mode) (q := q) hor g3
  simp only at hr
  generalize (if k0 ||| k1 ≠ 0 ∧ (mode = .nearest ∨ mode = .up) then if r1 = 0xffffffff then (q + 1, 0) else if mode = .up then (if r1 = 0xfffffffe then q + 1 else q, (r1 + 2) % 2 ^ 32) else (q, r1 + (r1 &&& 1)) else (q, r1)) = p at *
  have hh := halfWords (a := p.1) hr.1
  rw [hr.2] at hh
  refine ⟨_, rfl, ?_⟩
  have hfin : (((p.1 >>> 1 : Nat) : Int) + 0x3fe00000 + (m - 1023) / 2 * 2 ^ 20).toNat * 2 ^ 32 + (if p.1 &&& 1 ≠ 0 then (p.2 >>> 1) ||| 0x80000000 else p.2 >>> 1) =
      (c + 1) * 2 ^ 52 + halved mode (M * 2 ^ 54 = (q * 2 ^ 32 + r1) ^ 2) (q * 2 ^ 32 + r1) := by
    rw [← hh]
    generalize (if p.1 &&& 1 ≠ 0 then (p.2 >>> 1) ||| 0x80000000 else p.2 >>> 1) = z at *
    generalize p.1 >>> 1 = z' at *
    clear * - c1
    omega
  rw [hfin]
  exact key

/-- **sqrt, missing: what C leaves undefined, see `sqrt_violated`.** The correctly rounded square root of every positive finite number, in every mode, on machines on which the shift of a
32-bit word by 32 gives either zero or the word. -/
theorem sqrt_partial {over : Nat → Res Nat} {u : Nat} (hover : ∀ y < 2 ^ 32, over y = .ok 0 ∨ over y = .ok y) (hu : u < 2 ^ 64) (hfin : Finite double u) (hs : sgn double u = 0)
    (h0 : units double u ≠ 0) : ∃ r, sqrt over mode u = some (.ok (.bits r)) ∧ RootOf double mode u r := by
  have hpos : 0 < u := by
    rcases Nat.eq_zero_or_pos u with h | h
    · exact absurd (by rw [h]; decide) h0
    · exact h
  have hlt : u < 2 ^ 63 := by
    rw [sgn, Nat.shiftRight_eq_div_pow] at hs
    have : u / 2 ^ 63 = 0 := hs
    omega
  have hne : ¬(u >>> 32) &&& 0x7ff00000 = 0x7ff00000 := by
    intro hc
    have := congrArg (· >>> 20) hc
    simp only [Nat.shiftRight_and_distrib] at this
    rw [← Nat.shiftRight_add, show (0x7ff00000 >>> 20 : Nat) = 2 ^ 11 - 1 by decide] at this
    exact hfin this
  have hd : u >>> 32 = u / 2 ^ 32 := Nat.shiftRight_eq_div_pow _ _
  unfold sqrt
  rw [if_neg hne, if_neg (by omega), if_neg (by omega)]
  obtain ⟨ix0, ix1, m, n1, n2, n3⟩ := normD_spec hover hpos hlt hfin
  obtain ⟨r, r1, r2⟩ := finishD_spec (mode := mode) n2 n3
  rw [n1, Option.bind_some]
  simp only
  rw [r1]
  exact ⟨r, rfl, r2⟩

/-- For numbers that are not subnormal no assumption on the shift is needed. -/
theorem sqrt_normal {over : Nat → Res Nat} {u : Nat} (hu : u < 2 ^ 64) (hfin : Finite double u) (hs : sgn double u = 0) (h0 : ex double u ≠ 0) :
    ∃ r, sqrt over mode u = some (.ok (.bits r)) ∧ RootOf double mode u r := by
  have hlt : u < 2 ^ 63 := by
    rw [sgn, Nat.shiftRight_eq_div_pow] at hs
    have : u / 2 ^ 63 = 0 := hs
    omega
  have hd : u >>> 32 >>> 20 = u / 2 ^ 52 := by rw [← Nat.shiftRight_add, Nat.shiftRight_eq_div_pow]
  have hex : ex double u = u / 2 ^ 52 := by
    rw [ex_eq]
    exact Nat.mod_eq_of_lt (by simp only; omega)
  have hn : normD over u = normD (fun _ => .ok 0) u := by
    unfold normD
    rw [hd, if_neg (by rw [← hex]; exact h0), if_neg (by rw [← hex]; exact h0)]
  have hu0 : units double u ≠ 0 := by
    rw [units, if_neg h0]
    have : 0 < (2 ^ double.mb + man double u) * 2 ^ (ex double u - 1) := by positivity
    omega
  obtain ⟨r, r1, r2⟩ := sqrt_partial (over := fun _ => .ok 0) (mode := mode) (fun _ _ => .inl rfl) hu hfin hs hu0
  refine ⟨r, ?_, r2⟩
  rw [← r1]
  unfold sqrt
  rw [hn]

/-- **Violation**: the square root of the subnormal number 2^-1043, in strict C: `ix1>>(32-i)` with `i = 0` is undefined. -/
theorem sqrt_violated : sqrt (fun _ => .ub) mode 0x80000000 = some .ub ∧ Finite double 0x80000000 ∧ units double 0x80000000 = 2 ^ 31 := by
  unfold Finite
  cases mode <;> decide +kernel

/-- The same number on machines that shift by the low bits of the count, and on those that shift everything out: 2^-1043 is between the squares of the neighbours of the root. -/
example : sqrt (fun y => .ok y) .nearest 0x80000000 = some (.ok (.bits 0x1f56a09e667f3bcd)) ∧ sqrt (fun _ => .ok 0) .nearest 0x80000000 = some (.ok (.bits 0x1f56a09e667f3bcd)) := by
  decide +kernel

/-- Zeros, infinities, NaNs and negative numbers. -/
theorem sqrtf_special {u : Nat} (hu : u < 2 ^ 32) :
    (Finite float u → units float u = 0 → sqrtf mode u = some (.bits u)) ∧ (Finite float u → units float u ≠ 0 → sgn float u = 1 → sqrtf mode u = some .nan) ∧
    (IsInf float u → sgn float u = 0 → sqrtf mode u = some (.bits u)) ∧ (IsInf float u → sgn float u = 1 → sqrtf mode u = some .nan) ∧ (IsNan float u → sqrtf mode u = some .nan) := by
  have hE : float.emax = 255 := by decide
  have hm : u &&& 0x7f800000 = 0x7f800000 ↔ ex float u = 255 := by
    have e := pack_fields (f := float) u
    have h1 := and_pack (f := float) (s := sgn float u) (s' := 0) (e' := 255) (m' := 0) (ex_lt u) (man_lt u) (by decide) (by decide)
    rw [e, show pack float 0 255 0 = 0x7f800000 by decide, Nat.and_zero, Nat.and_zero] at h1
    rw [h1, show ex float u &&& 255 = ex float u % 2 ^ 8 from Nat.and_two_pow_sub_one_eq_mod _ 8, Nat.mod_eq_of_lt (ex_lt (f := float) u)]
    have := ex_lt (f := float) u
    unfold pack
    simp only at this ⊢
    omega
  have hz : units float u = 0 ↔ u &&& 0x7fffffff = 0 := by
    have h1 := and_low (f := float) u
    rw [show (2 ^ float.width - 1) / 2 = 0x7fffffff by decide] at h1
    rw [h1]
    exact units_zero_code
  have hs : sgn float u = u / 2 ^ 31 := by rw [sgn, Nat.shiftRight_eq_div_pow]; rfl
  unfold Finite IsInf IsNan
  rw [hE]
  unfold sqrtf
  refine ⟨fun h1 h2 => ?_, fun h1 h2 h3 => ?_, fun h1 h2 => ?_, fun h1 h2 => ?_, fun h1 => ?_⟩
  · have hz' := hz.1 h2
    have hc : u = 0 ∨ 0x80000000 ≤ u := by
      rw [show (0x7fffffff : Nat) = 2 ^ 31 - 1 from rfl, Nat.and_two_pow_sub_one_eq_mod] at hz'
      omega
    rw [if_neg (by rw [hm]; exact h1), if_pos hc, if_pos hz']
  · rw [if_neg (by rw [hm]; exact h1), if_pos (by omega), if_neg (by rw [← hz]; exact h2)]
  · rw [if_pos (hm.2 h1.1), if_neg (by rw [h1.2, h2]; simp)]
  · rw [if_pos (hm.2 h1.1), if_pos (.inr (by omega))]
  · rw [if_pos (hm.2 h1.1), if_pos (.inl h1.2)]

theorem sqrt_special {over : Nat → Res Nat} {u : Nat} (hu : u < 2 ^ 64) :
    (Finite double u → units double u = 0 → sqrt over mode u = some (.ok (.bits u))) ∧ (Finite double u → units double u ≠ 0 → sgn double u = 1 → sqrt over mode u = some (.ok .nan)) ∧
    (IsInf double u → sgn double u = 0 → sqrt over mode u = some (.ok (.bits u))) ∧ (IsInf double u → sgn double u = 1 → sqrt over mode u = some (.ok .nan)) ∧
    (IsNan double u → sqrt over mode u = some (.ok .nan)) := by
  have hE : double.emax = 2047 := by decide
  have hd : u >>> 32 = u / 2 ^ 32 := Nat.shiftRight_eq_div_pow _ _
  have hlt : u / 2 ^ 32 < 2 ^ 32 := by omega
  have hm : (u >>> 32) &&& 0x7ff00000 = 0x7ff00000 ↔ ex double u = 2047 := by
    have key : ((u >>> 32) &&& 0x7ff00000) >>> 20 = ex double u := by
      rw [Nat.shiftRight_and_distrib, ← Nat.shiftRight_add]; rfl
    have hmod : ((u >>> 32) &&& 0x7ff00000) % 2 ^ 20 = 0 := by rw [Nat.and_mod_two_pow, show 0x7ff00000 % 2 ^ 20 = 0 by decide, Nat.and_zero]
    rw [Nat.shiftRight_eq_div_pow] at key
    generalize (u >>> 32) &&& 0x7ff00000 = z at *
    omega
  have hz : units double u = 0 ↔ u % 2 ^ 63 = 0 := by
    have h1 := and_low (f := double) u
    rw [show (2 ^ double.width - 1) / 2 = 2 ^ 63 - 1 by decide, Nat.and_two_pow_sub_one_eq_mod] at h1
    rw [h1]
    exact units_zero_code
  have hor : ((u >>> 32) &&& 0x7fffffff) ||| u % 2 ^ 32 = 0 ↔ u % 2 ^ 63 = 0 := by
    rw [Nat.or_eq_zero_iff, show (0x7fffffff : Nat) = 2 ^ 31 - 1 from rfl, Nat.and_two_pow_sub_one_eq_mod, hd]
    omega
  have hs : sgn double u = u / 2 ^ 63 := by rw [sgn, Nat.shiftRight_eq_div_pow]; rfl
  unfold Finite IsInf IsNan
  rw [hE]
  unfold sqrt
  refine ⟨fun h1 h2 => ?_, fun h1 h2 h3 => ?_, fun h1 h2 => ?_, fun h1 h2 => ?_, fun h1 => ?_⟩
  · have hz' := hz.1 h2
    rw [if_neg (by rw [hm]; exact h1)]
    by_cases hc : u >>> 32 = 0 ∧ u % 2 ^ 32 = 0
    · rw [if_pos hc]
    · rw [if_neg hc, if_pos (by rw [hd] at hc ⊢; omega), if_pos (hor.2 hz')]
  · have hz' : ¬u % 2 ^ 63 = 0 := fun h => h2 (hz.2 h)
    rw [if_neg (by rw [hm]; exact h1), if_neg (by rw [hd]; omega), if_pos (by rw [hd]; omega), if_neg (by rw [hor]; exact hz')]
  · rw [if_pos (hm.2 h1.1), if_neg (by rw [h1.2, h2]; simp)]
  · rw [if_pos (hm.2 h1.1), if_pos (.inr (by omega))]
  · rw [if_pos (hm.2 h1.1), if_pos (.inl h1.2)]

/-- The hypotheses are met: 2, and the smallest number. -/
example : Finite float 0x40000000 ∧ sgn float 0x40000000 = 0 ∧ units float 0x40000000 ≠ 0 ∧ Finite double 1 ∧ sgn double 1 = 0 ∧ units double 1 ≠ 0 ∧
    Finite double 0x8000000000000000 ∧ units double 0x8000000000000000 = 0 := by
  unfold Finite
  decide +kernel

end

end Mlibc.Math
