import Verif.Base

/-
wcwidth and wcswidth (options/posix/generic/wchar.cpp): the number of columns of a character, by binary search in tables of intervals. Property C88.
-/
namespace Mlibc.Wchar
open Mlibc

/-! ## The code -/

/-- wchar.cpp L42-367 `ZERO_WIDTH`. -/
def zeroWidth : List (Nat × Nat) :=
  [(0x300, 0x36f), (0x483, 0x489), (0x591, 0x5bd), (0x5bf, 0x5bf), (0x5c1, 0x5c2), (0x5c4, 0x5c5), (0x5c7, 0x5c7), (0x610, 0x61a), (0x64b, 0x65f),
   (0x670, 0x670), (0x6d6, 0x6dc), (0x6df, 0x6e4), (0x6e7, 0x6e8), (0x6ea, 0x6ed), (0x711, 0x711), (0x730, 0x74a), (0x7a6, 0x7b0), (0x7eb, 0x7f3),
   (0x7fd, 0x7fd), (0x816, 0x819), (0x81b, 0x823), (0x825, 0x827), (0x829, 0x82d), (0x859, 0x85b), (0x8d3, 0x8e1), (0x8e3, 0x902), (0x93a, 0x93a),
   (0x93c, 0x93c), (0x941, 0x948), (0x94d, 0x94d), (0x951, 0x957), (0x962, 0x963), (0x981, 0x981), (0x9bc, 0x9bc), (0x9c1, 0x9c4), (0x9cd, 0x9cd),
   (0x9e2, 0x9e3), (0x9fe, 0x9fe), (0xa01, 0xa02), (0xa3c, 0xa3c), (0xa41, 0xa42), (0xa47, 0xa48), (0xa4b, 0xa4d), (0xa51, 0xa51), (0xa70, 0xa71),
   (0xa75, 0xa75), (0xa81, 0xa82), (0xabc, 0xabc), (0xac1, 0xac5), (0xac7, 0xac8), (0xacd, 0xacd), (0xae2, 0xae3), (0xafa, 0xaff), (0xb01, 0xb01),
   (0xb3c, 0xb3c), (0xb3f, 0xb3f), (0xb41, 0xb44), (0xb4d, 0xb4d), (0xb55, 0xb56), (0xb62, 0xb63), (0xb82, 0xb82), (0xbc0, 0xbc0), (0xbcd, 0xbcd),
   (0xc00, 0xc00), (0xc04, 0xc04), (0xc3e, 0xc40), (0xc46, 0xc48), (0xc4a, 0xc4d), (0xc55, 0xc56), (0xc62, 0xc63), (0xc81, 0xc81), (0xcbc, 0xcbc),
   (0xcbf, 0xcbf), (0xcc6, 0xcc6), (0xccc, 0xccd), (0xce2, 0xce3), (0xd00, 0xd01), (0xd3b, 0xd3c), (0xd41, 0xd44), (0xd4d, 0xd4d), (0xd62, 0xd63),
   (0xd81, 0xd81), (0xdca, 0xdca), (0xdd2, 0xdd4), (0xdd6, 0xdd6), (0xe31, 0xe31), (0xe34, 0xe3a), (0xe47, 0xe4e), (0xeb1, 0xeb1), (0xeb4, 0xebc),
   (0xec8, 0xecd), (0xf18, 0xf19), (0xf35, 0xf35), (0xf37, 0xf37), (0xf39, 0xf39), (0xf71, 0xf7e), (0xf80, 0xf84), (0xf86, 0xf87), (0xf8d, 0xf97),
   (0xf99, 0xfbc), (0xfc6, 0xfc6), (0x102d, 0x1030), (0x1032, 0x1037), (0x1039, 0x103a), (0x103d, 0x103e), (0x1058, 0x1059), (0x105e, 0x1060),
   (0x1071, 0x1074), (0x1082, 0x1082), (0x1085, 0x1086), (0x108d, 0x108d), (0x109d, 0x109d), (0x135d, 0x135f), (0x1712, 0x1714), (0x1732, 0x1734),
   (0x1752, 0x1753), (0x1772, 0x1773), (0x17b4, 0x17b5), (0x17b7, 0x17bd), (0x17c6, 0x17c6), (0x17c9, 0x17d3), (0x17dd, 0x17dd), (0x180b, 0x180d),
   (0x1885, 0x1886), (0x18a9, 0x18a9), (0x1920, 0x1922), (0x1927, 0x1928), (0x1932, 0x1932), (0x1939, 0x193b), (0x1a17, 0x1a18), (0x1a1b, 0x1a1b),
   (0x1a56, 0x1a56), (0x1a58, 0x1a5e), (0x1a60, 0x1a60), (0x1a62, 0x1a62), (0x1a65, 0x1a6c), (0x1a73, 0x1a7c), (0x1a7f, 0x1a7f), (0x1ab0, 0x1ac0),
   (0x1b00, 0x1b03), (0x1b34, 0x1b34), (0x1b36, 0x1b3a), (0x1b3c, 0x1b3c), (0x1b42, 0x1b42), (0x1b6b, 0x1b73), (0x1b80, 0x1b81), (0x1ba2, 0x1ba5),
   (0x1ba8, 0x1ba9), (0x1bab, 0x1bad), (0x1be6, 0x1be6), (0x1be8, 0x1be9), (0x1bed, 0x1bed), (0x1bef, 0x1bf1), (0x1c2c, 0x1c33), (0x1c36, 0x1c37),
   (0x1cd0, 0x1cd2), (0x1cd4, 0x1ce0), (0x1ce2, 0x1ce8), (0x1ced, 0x1ced), (0x1cf4, 0x1cf4), (0x1cf8, 0x1cf9), (0x1dc0, 0x1df9), (0x1dfb, 0x1dff),
   (0x20d0, 0x20f0), (0x2cef, 0x2cf1), (0x2d7f, 0x2d7f), (0x2de0, 0x2dff), (0x302a, 0x302d), (0x3099, 0x309a), (0xa66f, 0xa672), (0xa674, 0xa67d),
   (0xa69e, 0xa69f), (0xa6f0, 0xa6f1), (0xa802, 0xa802), (0xa806, 0xa806), (0xa80b, 0xa80b), (0xa825, 0xa826), (0xa82c, 0xa82c), (0xa8c4, 0xa8c5),
   (0xa8e0, 0xa8f1), (0xa8ff, 0xa8ff), (0xa926, 0xa92d), (0xa947, 0xa951), (0xa980, 0xa982), (0xa9b3, 0xa9b3), (0xa9b6, 0xa9b9), (0xa9bc, 0xa9bd),
   (0xa9e5, 0xa9e5), (0xaa29, 0xaa2e), (0xaa31, 0xaa32), (0xaa35, 0xaa36), (0xaa43, 0xaa43), (0xaa4c, 0xaa4c), (0xaa7c, 0xaa7c), (0xaab0, 0xaab0),
   (0xaab2, 0xaab4), (0xaab7, 0xaab8), (0xaabe, 0xaabf), (0xaac1, 0xaac1), (0xaaec, 0xaaed), (0xaaf6, 0xaaf6), (0xabe5, 0xabe5), (0xabe8, 0xabe8),
   (0xabed, 0xabed), (0xfb1e, 0xfb1e), (0xfe00, 0xfe0f), (0xfe20, 0xfe2f), (0x101fd, 0x101fd), (0x102e0, 0x102e0), (0x10376, 0x1037a),
   (0x10a01, 0x10a03), (0x10a05, 0x10a06), (0x10a0c, 0x10a0f), (0x10a38, 0x10a3a), (0x10a3f, 0x10a3f), (0x10ae5, 0x10ae6), (0x10d24, 0x10d27),
   (0x10eab, 0x10eac), (0x10f46, 0x10f50), (0x11001, 0x11001), (0x11038, 0x11046), (0x1107f, 0x11081), (0x110b3, 0x110b6), (0x110b9, 0x110ba),
   (0x11100, 0x11102), (0x11127, 0x1112b), (0x1112d, 0x11134), (0x11173, 0x11173), (0x11180, 0x11181), (0x111b6, 0x111be), (0x111c9, 0x111cc),
   (0x111cf, 0x111cf), (0x1122f, 0x11231), (0x11234, 0x11234), (0x11236, 0x11237), (0x1123e, 0x1123e), (0x112df, 0x112df), (0x112e3, 0x112ea),
   (0x11300, 0x11301), (0x1133b, 0x1133c), (0x11340, 0x11340), (0x11366, 0x1136c), (0x11370, 0x11374), (0x11438, 0x1143f), (0x11442, 0x11444),
   (0x11446, 0x11446), (0x1145e, 0x1145e), (0x114b3, 0x114b8), (0x114ba, 0x114ba), (0x114bf, 0x114c0), (0x114c2, 0x114c3), (0x115b2, 0x115b5),
   (0x115bc, 0x115bd), (0x115bf, 0x115c0), (0x115dc, 0x115dd), (0x11633, 0x1163a), (0x1163d, 0x1163d), (0x1163f, 0x11640), (0x116ab, 0x116ab),
   (0x116ad, 0x116ad), (0x116b0, 0x116b5), (0x116b7, 0x116b7), (0x1171d, 0x1171f), (0x11722, 0x11725), (0x11727, 0x1172b), (0x1182f, 0x11837),
   (0x11839, 0x1183a), (0x1193b, 0x1193c), (0x1193e, 0x1193e), (0x11943, 0x11943), (0x119d4, 0x119d7), (0x119da, 0x119db), (0x119e0, 0x119e0),
   (0x11a01, 0x11a0a), (0x11a33, 0x11a38), (0x11a3b, 0x11a3e), (0x11a47, 0x11a47), (0x11a51, 0x11a56), (0x11a59, 0x11a5b), (0x11a8a, 0x11a96),
   (0x11a98, 0x11a99), (0x11c30, 0x11c36), (0x11c38, 0x11c3d), (0x11c3f, 0x11c3f), (0x11c92, 0x11ca7), (0x11caa, 0x11cb0), (0x11cb2, 0x11cb3),
   (0x11cb5, 0x11cb6), (0x11d31, 0x11d36), (0x11d3a, 0x11d3a), (0x11d3c, 0x11d3d), (0x11d3f, 0x11d45), (0x11d47, 0x11d47), (0x11d90, 0x11d91),
   (0x11d95, 0x11d95), (0x11d97, 0x11d97), (0x11ef3, 0x11ef4), (0x16af0, 0x16af4), (0x16b30, 0x16b36), (0x16f4f, 0x16f4f), (0x16f8f, 0x16f92),
   (0x16fe4, 0x16fe4), (0x1bc9d, 0x1bc9e), (0x1d167, 0x1d169), (0x1d17b, 0x1d182), (0x1d185, 0x1d18b), (0x1d1aa, 0x1d1ad), (0x1d242, 0x1d244),
   (0x1da00, 0x1da36), (0x1da3b, 0x1da6c), (0x1da75, 0x1da75), (0x1da84, 0x1da84), (0x1da9b, 0x1da9f), (0x1daa1, 0x1daaf), (0x1e000, 0x1e006),
   (0x1e008, 0x1e018), (0x1e01b, 0x1e021), (0x1e023, 0x1e024), (0x1e026, 0x1e02a), (0x1e130, 0x1e136), (0x1e2ec, 0x1e2ef), (0x1e8d0, 0x1e8d6),
   (0x1e944, 0x1e94a), (0xe0100, 0xe01ef)]

/-- wchar.cpp L371-488 `WIDE_EASTASIAN`. -/
def wideEastAsian : List (Nat × Nat) :=
  [(0x1100, 0x115f), (0x231a, 0x231b), (0x2329, 0x232a), (0x23e9, 0x23ec), (0x23f0, 0x23f0), (0x23f3, 0x23f3), (0x25fd, 0x25fe), (0x2614, 0x2615),
   (0x2648, 0x2653), (0x267f, 0x267f), (0x2693, 0x2693), (0x26a1, 0x26a1), (0x26aa, 0x26ab), (0x26bd, 0x26be), (0x26c4, 0x26c5), (0x26ce, 0x26ce),
   (0x26d4, 0x26d4), (0x26ea, 0x26ea), (0x26f2, 0x26f3), (0x26f5, 0x26f5), (0x26fa, 0x26fa), (0x26fd, 0x26fd), (0x2705, 0x2705), (0x270a, 0x270b),
   (0x2728, 0x2728), (0x274c, 0x274c), (0x274e, 0x274e), (0x2753, 0x2755), (0x2757, 0x2757), (0x2795, 0x2797), (0x27b0, 0x27b0), (0x27bf, 0x27bf),
   (0x2b1b, 0x2b1c), (0x2b50, 0x2b50), (0x2b55, 0x2b55), (0x2e80, 0x2e99), (0x2e9b, 0x2ef3), (0x2f00, 0x2fd5), (0x2ff0, 0x2ffb), (0x3000, 0x303e),
   (0x3041, 0x3096), (0x3099, 0x30ff), (0x3105, 0x312f), (0x3131, 0x318e), (0x3190, 0x31e3), (0x31f0, 0x321e), (0x3220, 0x3247), (0x3250, 0x4dbf),
   (0x4e00, 0xa48c), (0xa490, 0xa4c6), (0xa960, 0xa97c), (0xac00, 0xd7a3), (0xf900, 0xfaff), (0xfe10, 0xfe19), (0xfe30, 0xfe52), (0xfe54, 0xfe66),
   (0xfe68, 0xfe6b), (0xff01, 0xff60), (0xffe0, 0xffe6), (0x16fe0, 0x16fe4), (0x16ff0, 0x16ff1), (0x17000, 0x187f7), (0x18800, 0x18cd5),
   (0x18d00, 0x18d08), (0x1b000, 0x1b11e), (0x1b150, 0x1b152), (0x1b164, 0x1b167), (0x1b170, 0x1b2fb), (0x1f004, 0x1f004), (0x1f0cf, 0x1f0cf),
   (0x1f18e, 0x1f18e), (0x1f191, 0x1f19a), (0x1f200, 0x1f202), (0x1f210, 0x1f23b), (0x1f240, 0x1f248), (0x1f250, 0x1f251), (0x1f260, 0x1f265),
   (0x1f300, 0x1f320), (0x1f32d, 0x1f335), (0x1f337, 0x1f37c), (0x1f37e, 0x1f393), (0x1f3a0, 0x1f3ca), (0x1f3cf, 0x1f3d3), (0x1f3e0, 0x1f3f0),
   (0x1f3f4, 0x1f3f4), (0x1f3f8, 0x1f43e), (0x1f440, 0x1f440), (0x1f442, 0x1f4fc), (0x1f4ff, 0x1f53d), (0x1f54b, 0x1f54e), (0x1f550, 0x1f567),
   (0x1f57a, 0x1f57a), (0x1f595, 0x1f596), (0x1f5a4, 0x1f5a4), (0x1f5fb, 0x1f64f), (0x1f680, 0x1f6c5), (0x1f6cc, 0x1f6cc), (0x1f6d0, 0x1f6d2),
   (0x1f6d5, 0x1f6d7), (0x1f6eb, 0x1f6ec), (0x1f6f4, 0x1f6fc), (0x1f7e0, 0x1f7eb), (0x1f90c, 0x1f93a), (0x1f93c, 0x1f945), (0x1f947, 0x1f978),
   (0x1f97a, 0x1f9cb), (0x1f9cd, 0x1f9ff), (0x1fa70, 0x1fa74), (0x1fa78, 0x1fa7a), (0x1fa80, 0x1fa86), (0x1fa90, 0x1faa8), (0x1fab0, 0x1fab6),
   (0x1fac0, 0x1fac2), (0x1fad0, 0x1fad6), (0x20000, 0x2fffd), (0x30000, 0x3fffd)]

/-- The loop of `intable`. wchar.cpp L500-507. `none`: not finished with this fuel; an access outside the table is undefined. -/
def search (table : List (Nat × Nat)) (c : Int) : Nat → Int → Int → Res (Option Bool)
  | 0, _, _ => .ok none
  | fuel + 1, bot, top =>
    if top ≥ bot then
      let mid := (bot + top).tdiv 2
      if mid < 0 then .ub
      else
        match table[mid.toNat]? with
        | none => .ub
        | some iv =>
          if (iv.2 : Int) < c then search table c fuel (mid + 1) top
          else if (iv.1 : Int) > c then search table c fuel bot (mid - 1)
          else .ok (some true)
    else .ok (some false)

/-- wchar.cpp L490-508 `intable`. -/
def intable (table : List (Nat × Nat)) (c : Int) (fuel : Nat) : Res (Option Bool) :=
  match table with
  | [] => .ub
  | iv :: _ =>
    if c < iv.1 then .ok (some false)
    else search table c fuel 0 (table.length - 1)

/-- wchar.cpp L512-529 `wcwidth`. -/
def wcwidth (c : Int) (fuel : Nat) : Res (Option Int) :=
  if c = 0 ∨ c = 0x034F ∨ (0x200B ≤ c ∧ c ≤ 0x200F) ∨ c = 0x2028 ∨ c = 0x2029 ∨ (0x202A ≤ c ∧ c ≤ 0x202E) ∨ (0x2060 ≤ c ∧ c ≤ 0x2063) then
    .ok (some 0)
  else if c < 32 ∨ (0x7F ≤ c ∧ c < 0xA0) then .ok (some (-1))
  else
    (intable zeroWidth c fuel).bind fun
      | none => .ok none
      | some true => .ok (some 0)
      | some false =>
        (intable wideEastAsian c fuel).bind fun
          | none => .ok none
          | some true => .ok (some 2)
          | some false => .ok (some 1)

/-- wchar.cpp L531-541 `wcswidth`; the string is a list of characters, reading behind it is undefined; `ret` is an int. -/
def wcswidth (fuel : Nat) : List Int → Nat → Int → Res (Option Int)
  | _, 0, ret => .ok (some ret)
  | [], _ + 1, _ => .ub
  | c :: s, n + 1, ret =>
    if c = 0 then .ok (some ret)
    else
      (wcwidth c fuel).bind fun
        | none => .ok none
        | some cols =>
          if cols < 0 then .ok (some (-1))
          else if ret + cols > 2147483647 then .ub
          else wcswidth fuel s n (ret + cols)

/-! ## Specification -/

/-- In one of the intervals. -/
def Within (table : List (Nat × Nat)) (c : Int) : Prop := ∃ iv ∈ table, (iv.1 : Int) ≤ c ∧ c ≤ iv.2

/-- The intervals are in order and disjoint. -/
def Ordered : Nat → List (Nat × Nat) → Prop
  | _, [] => True
  | lo, iv :: t => lo ≤ iv.1 ∧ iv.1 ≤ iv.2 ∧ Ordered (iv.2 + 1) t

instance decOrdered : (lo : Nat) → (t : List (Nat × Nat)) → Decidable (Ordered lo t)
  | _, [] => isTrue trivial
  | _, iv :: t => @instDecidableAnd _ _ _ (@instDecidableAnd _ _ _ (decOrdered (iv.2 + 1) t))

/-- Format characters without width. -/
def Format (c : Int) : Prop :=
  c = 0 ∨ c = 0x034F ∨ (0x200B ≤ c ∧ c ≤ 0x200F) ∨ (0x2028 ≤ c ∧ c ≤ 0x202E) ∨ (0x2060 ≤ c ∧ c ≤ 0x2063)

/-- Control characters (and negative numbers). -/
def Control (c : Int) : Prop := c ≠ 0 ∧ (c < 32 ∨ (127 ≤ c ∧ c ≤ 159))

/-- The columns that a character takes. -/
inductive Columns (c : Int) : Int → Prop
  | control : Control c → Columns c (-1)
  | zero : ¬ Control c → (Format c ∨ Within zeroWidth c) → Columns c 0
  | wide : ¬ Control c → ¬ Format c → ¬ Within zeroWidth c → Within wideEastAsian c → Columns c 2
  | normal : ¬ Control c → ¬ Format c → ¬ Within zeroWidth c → ¬ Within wideEastAsian c → Columns c 1

/-- The columns of the characters of a string, in order. -/
inductive AllColumns : List Int → List Int → Prop
  | nil : AllColumns [] []
  | cons {c w : Int} {s ws : List Int} : Columns c w → AllColumns s ws → AllColumns (c :: s) (w :: ws)

/-! ## Proofs -/

theorem Ordered.get {lo : Nat} {t : List (Nat × Nat)} (h : Ordered lo t) (i : Nat) (iv : Nat × Nat) (hi : t[i]? = some iv) :
    lo ≤ iv.1 ∧ iv.1 ≤ iv.2 := by
  induction t generalizing lo i with
  | nil => simp at hi
  | cons a t ih =>
    obtain ⟨h1, h2, h3⟩ := h
    cases i with
    | zero => simp at hi; subst hi; exact ⟨h1, h2⟩
    | succ i =>
      have := ih h3 i (by simpa using hi)
      omega

theorem Ordered.lt {lo : Nat} {t : List (Nat × Nat)} (h : Ordered lo t) (i j : Nat) (a b : Nat × Nat) (hij : i < j) (hi : t[i]? = some a)
    (hj : t[j]? = some b) : a.2 < b.1 := by
  induction t generalizing lo i j with
  | nil => simp at hi
  | cons x t ih =>
    obtain ⟨h1, h2, h3⟩ := h
    cases j with
    | zero => omega
    | succ j =>
      cases i with
      | zero =>
        simp at hi
        subst hi
        have := h3.get j b (by simpa using hj)
        omega
      | succ i => exact ih h3 i j (by omega) (by simpa using hi) (by simpa using hj)

/-- The binary search is right: what is outside the current bounds cannot contain `c`. -/
theorem search_spec (table : List (Nat × Nat)) (h : Ordered 0 table) (c : Int) (fuel : Nat) : ∀ (bot top : Int), 0 ≤ bot → top < table.length → bot ≤ top + 1 →
    top - bot + 1 < fuel →
    (∀ (i : Nat) (a : Nat × Nat), table[i]? = some a → ((i : Int) < bot → (a.2 : Int) < c) ∧ (top < i → c < (a.1 : Int))) →
    ∃ b, search table c fuel bot top = .ok (some b) ∧ (b = true ↔ Within table c) := by
  induction fuel with
  | zero =>
    intro bot top h1 h2 h3 h4 hinv
    omega
  | succ fuel ih =>
    intro bot top h1 h2 h3 h4 hinv
    rw [search]
    by_cases hge : top ≥ bot
    · rw [if_pos hge]
      dsimp only
      have hmid : (bot + top).tdiv 2 = (bot + top) / 2 := Int.tdiv_eq_ediv_of_nonneg (by omega)
      rw [hmid]
      have hm1 : bot ≤ (bot + top) / 2 := by omega
      have hm2 : (bot + top) / 2 ≤ top := by omega
      generalize (bot + top) / 2 = mid at hm1 hm2
      rw [if_neg (by omega)]
      have hlt : mid.toNat < table.length := by omega
      have hget : table[mid.toNat]? = some table[mid.toNat] := List.getElem?_eq_getElem hlt
      generalize table[mid.toNat] = iv at hget
      rw [hget]
      dsimp only
      by_cases hc1 : (iv.2 : Int) < c
      · rw [if_pos hc1]
        refine ih (mid + 1) top (by omega) h2 (by omega) (by omega) ?_
        intro i a ha
        refine ⟨?_, (hinv i a ha).2⟩
        intro hi
        by_cases hie : i = mid.toNat
        · subst hie; rw [hget] at ha; injection ha with ha; subst ha; exact hc1
        · have := h.lt i mid.toNat a iv (by omega) ha hget
          have := h.get mid.toNat iv hget
          omega
      · rw [if_neg hc1]
        by_cases hc2 : (iv.1 : Int) > c
        · rw [if_pos hc2]
          refine ih bot (mid - 1) h1 (by omega) (by omega) (by omega) ?_
          intro i a ha
          refine ⟨(hinv i a ha).1, ?_⟩
          intro hi
          by_cases hie : i = mid.toNat
          · subst hie; rw [hget] at ha; injection ha with ha; subst ha; exact hc2
          · have := h.lt mid.toNat i iv a (by omega) hget ha
            have := h.get mid.toNat iv hget
            omega
        · rw [if_neg hc2]
          refine ⟨true, rfl, ?_⟩
          simp only [true_iff]
          exact ⟨iv, List.mem_of_getElem? hget, by omega, by omega⟩
    · rw [if_neg hge]
      refine ⟨false, rfl, ?_⟩
      simp only [Bool.false_eq_true, false_iff]
      rintro ⟨iv, hm, h5, h6⟩
      obtain ⟨i, hi⟩ := List.getElem?_of_mem hm
      have := hinv i iv hi
      by_cases hib : (i : Int) < bot
      · have := this.1 hib; omega
      · have := this.2 (by omega); omega

theorem intable_spec (table : List (Nat × Nat)) (hne : table ≠ []) (h : Ordered 0 table) (c : Int) (fuel : Nat) (hf : table.length < fuel) :
    ∃ b, intable table c fuel = .ok (some b) ∧ (b = true ↔ Within table c) := by
  unfold intable
  cases table with
  | nil => exact absurd rfl hne
  | cons iv t =>
    dsimp only
    by_cases hc : c < iv.1
    · rw [if_pos hc]
      refine ⟨false, rfl, ?_⟩
      simp only [Bool.false_eq_true, false_iff]
      rintro ⟨a, hm, h5, h6⟩
      obtain ⟨i, hi⟩ := List.getElem?_of_mem hm
      cases i with
      | zero => simp at hi; subst hi; omega
      | succ i =>
        have := h.lt 0 (i + 1) iv a (by omega) rfl hi
        have := h.get 0 iv rfl
        omega
    · rw [if_neg hc]
      refine search_spec (iv :: t) h c fuel 0 _ (by omega) (by omega) (by omega) (by omega) ?_
      intro i a ha
      have : i < (iv :: t).length := by
        rw [List.getElem?_eq_some_iff] at ha
        exact ha.1
      omega

theorem zero_ordered : Ordered 0 zeroWidth := by decide +kernel

theorem wide_ordered : Ordered 0 wideEastAsian := by decide +kernel

theorem zero_length : zeroWidth.length ≤ 400 := by decide +kernel

theorem wide_length : wideEastAsian.length ≤ 400 := by decide +kernel

theorem zero_ne : zeroWidth ≠ [] := by decide +kernel

theorem wide_ne : wideEastAsian ≠ [] := by decide +kernel

/-- **C88**: for every value of a wide character, wcwidth ends and gives the columns of the character: -1 for control characters, 0 for format characters and
the intervals of the one table, 2 for those of the other, else 1. -/
theorem wcwidth_exact (c : Int) (fuel : Nat) (hf : 400 < fuel) : ∃ w, wcwidth c fuel = .ok (some w) ∧ Columns c w := by
  have hz := zero_length
  have hw := wide_length
  obtain ⟨b1, e1, i1⟩ := intable_spec zeroWidth zero_ne zero_ordered c fuel (by omega)
  obtain ⟨b2, e2, i2⟩ := intable_spec wideEastAsian wide_ne wide_ordered c fuel (by omega)
  unfold wcwidth
  rw [e1, e2]
  by_cases hfmt : c = 0 ∨ c = 0x034F ∨ (0x200B ≤ c ∧ c ≤ 0x200F) ∨ c = 0x2028 ∨ c = 0x2029 ∨ (0x202A ≤ c ∧ c ≤ 0x202E) ∨ (0x2060 ≤ c ∧ c ≤ 0x2063)
  · rw [if_pos hfmt]
    refine ⟨0, rfl, .zero ?_ (Or.inl ?_)⟩
    · unfold Control; omega
    · unfold Format; omega
  · rw [if_neg hfmt]
    have hnf : ¬ Format c := by unfold Format; omega
    by_cases hctl : c < 32 ∨ (0x7F ≤ c ∧ c < 0xA0)
    · rw [if_pos hctl]
      exact ⟨-1, rfl, .control (by unfold Control; omega)⟩
    · rw [if_neg hctl]
      have hnc : ¬ Control c := by unfold Control; omega
      cases b1 with
      | true => exact ⟨0, rfl, .zero hnc (Or.inr (i1.1 rfl))⟩
      | false =>
        have hn1 : ¬ Within zeroWidth c := fun h => by have := i1.2 h; cases this
        cases b2 with
        | true => exact ⟨2, rfl, .wide hnc hnf hn1 (i2.1 rfl)⟩
        | false =>
          have hn2 : ¬ Within wideEastAsian c := fun h => by have := i2.2 h; cases this
          exact ⟨1, rfl, .normal hnc hnf hn1 hn2⟩

/-- A character has one number of columns. -/
theorem Columns.unique {c v w : Int} (h1 : Columns c v) (h2 : Columns c w) : v = w := by
  cases h1 with
  | control a => cases h2 with
    | control => rfl
    | zero b => exact absurd a b
    | wide b => exact absurd a b
    | normal b => exact absurd a b
  | zero a b => cases h2 with
    | control d => exact absurd d a
    | zero => rfl
    | wide _ e f => exact absurd b (by rintro (h | h); exact e h; exact f h)
    | normal _ e f => exact absurd b (by rintro (h | h); exact e h; exact f h)
  | wide a b d e => cases h2 with
    | control f => exact absurd f a
    | zero _ f => exact absurd f (by rintro (h | h); exact b h; exact d h)
    | wide => rfl
    | normal _ _ _ f => exact absurd e f
  | normal a b d e => cases h2 with
    | control f => exact absurd f a
    | zero _ f => exact absurd f (by rintro (h | h); exact b h; exact d h)
    | wide _ _ _ f => exact absurd f e
    | normal => rfl

theorem Columns.range {c w : Int} (h : Columns c w) : w = -1 ∨ w = 0 ∨ w = 1 ∨ w = 2 := by
  cases h <;> simp

/-- **C88**: wcswidth of `s` (the first `n` characters, or those up to the end of the string) is the sum of the columns, or -1 if there is a control
character. -/
theorem wcswidth_exact (fuel : Nat) (hf : 400 < fuel) (s rest : List Int) (ws : List Int) (hw : AllColumns s ws) (h0 : (0 : Int) ∉ s) (n : Nat)
    (hn : n = s.length ∨ (s.length < n ∧ rest.head? = some 0)) (hlen : 2 * (s.length : Int) ≤ 2147483647) :
    wcswidth fuel (s ++ rest) n 0 = .ok (some (if -1 ∈ ws then -1 else ws.sum)) := by
  suffices h : ∀ ret : Int, 0 ≤ ret → ret + 2 * (s.length : Int) ≤ 2147483647 →
      wcswidth fuel (s ++ rest) n ret = .ok (some (if -1 ∈ ws then -1 else ret + ws.sum)) by
    have := h 0 (by omega) (by omega)
    rw [Int.zero_add] at this
    exact this
  clear hlen
  induction hw generalizing n with
  | nil =>
    intro ret _ _
    rcases hn with rfl | ⟨hlt, hz⟩
    · simp [wcswidth]
    · cases n with
      | zero => simp at hlt
      | succ n =>
        cases rest with
        | nil => cases hz
        | cons z rest =>
          simp only [List.head?_cons, Option.some.injEq] at hz
          subst hz
          simp [wcswidth]
  | @cons c w s ws hc _ ih =>
    intro ret hr1 hr2
    simp only [List.length_cons] at hn hr2
    obtain ⟨m, rfl⟩ : ∃ m, n = m + 1 := by
      rcases hn with h | h
      · exact ⟨s.length, h⟩
      · exact ⟨n - 1, by omega⟩
    have hc0 : c ≠ 0 := fun e => h0 (by simp [e])
    obtain ⟨w', e1, e2⟩ := wcwidth_exact c fuel hf
    have : w' = w := e2.unique hc
    subst this
    rw [List.cons_append, wcswidth, if_neg hc0, e1]
    show (if w' < 0 then Res.ok (some (-1)) else if ret + w' > 2147483647 then Res.ub else wcswidth fuel (s ++ rest) m (ret + w')) = _
    have hrange := hc.range
    by_cases hneg : w' < 0
    · have : w' = -1 := by omega
      subst this
      simp
    · rw [if_neg hneg, if_neg (by omega), ih (fun h => h0 (by simp [h])) m (by rcases hn with h | h; exact Or.inl (by omega); exact Or.inr ⟨by omega, h.2⟩) (ret + w') (by omega) (by omega)]
      have : (-1 ∈ w' :: ws) ↔ (-1 ∈ ws) := by
        rw [List.mem_cons]
        constructor
        · rintro (h | h)
          · omega
          · exact h
        · exact Or.inr
      rw [List.sum_cons]
      by_cases hm : -1 ∈ ws
      · rw [if_pos hm, if_pos (this.2 hm)]
      · rw [if_neg hm, if_neg (fun h => hm (this.1 h)), Int.add_assoc]

/-- "a", a wide character, a combining character: three columns. -/
example : wcswidth 401 ([0x61, 0x4e2d, 0x301] ++ [0]) 10 0 = .ok (some 3) := by decide +kernel

example : Columns 0x4e2d 2 ∧ Columns 0x301 0 ∧ Columns 0x61 1 ∧ Columns 7 (-1) := by
  refine ⟨?_, ?_, ?_, .control (by unfold Control; omega)⟩
  · obtain ⟨w, e1, e2⟩ := wcwidth_exact 0x4e2d 401 (by omega)
    have : wcwidth 0x4e2d 401 = .ok (some 2) := by decide +kernel
    rw [this] at e1
    injection e1 with e1
    injection e1 with e1
    exact e1 ▸ e2
  · obtain ⟨w, e1, e2⟩ := wcwidth_exact 0x301 401 (by omega)
    have : wcwidth 0x301 401 = .ok (some 0) := by decide +kernel
    rw [this] at e1
    injection e1 with e1
    injection e1 with e1
    exact e1 ▸ e2
  · obtain ⟨w, e1, e2⟩ := wcwidth_exact 0x61 401 (by omega)
    have : wcwidth 0x61 401 = .ok (some 1) := by decide +kernel
    rw [this] at e1
    injection e1 with e1
    injection e1 with e1
    exact e1 ▸ e2

end Mlibc.Wchar
