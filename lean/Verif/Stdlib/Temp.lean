import Verif.Base

/-!
# Temporary files and directories: `mkostemps` and its variants, `mkdtemp`, `tmpfile`, `tmpnam`

options/internal/generic/stdlib.cpp L12-40, options/posix/generic/posix_stdlib.cpp L181-230,
options/ansi/generic/stdio.cpp L782-825.

A path is the list of its bytes; two paths are the same file if they are the same list (no links).  Other programs may
change the file system between any two calls of the kernel.
-/
namespace Mlibc.Temp

/-! ## Specification -/

/-- The files that exist, each with its permissions. -/
abbrev Files := List (List Nat × Nat)

/-- There is a file of that name. -/
abbrev Files.has (fs : Files) (name : List Nat) : Prop := ∃ perm, (name, perm) ∈ fs

/-- The six decimal digits of a number, with leading zeros. -/
def sixDigits (k : Nat) : List Nat :=
  [48 + k / 100000 % 10, 48 + k / 10000 % 10, 48 + k / 1000 % 10, 48 + k / 100 % 10, 48 + k / 10 % 10, 48 + k % 10]

/-- The text is a template with a suffix of `len` characters: six letters X between `pre` and `suf`. -/
def Template (text : List Nat) (len : Int) (pre suf : List Nat) : Prop :=
  text = pre ++ [88, 88, 88, 88, 88, 88] ++ suf ∧ len = suf.length

/-- The rest of the system: what other programs make of the files before attempt `i`, and an error (permissions,
    no space, too many files, ...) that the kernel reports for a path at attempt `i`. -/
structure World where
  env : Nat → Files → Files
  deny : Nat → List Nat → Option Nat

/-- The files just before attempt `i`, if no attempt before changed them. -/
def World.before (w : World) (fs : Files) : Nat → Files
  | 0 => w.env 0 fs
  | i + 1 => w.env (i + 1) (w.before fs i)

/-- What a call may give. -/
structure Out where
  /-- the bytes of the template object afterwards -/
  mem : List Nat
  files : Files
  /-- 0 or an error number -/
  err : Nat
  /-- access mode of the descriptor returned: 0 reading, 1 writing, 2 both -/
  access : Nat
deriving DecidableEq, Repr

/-- Creating a file or a directory with permissions `perm` from the template `pre ++ XXXXXX ++ suf`, in an object with the bytes
    `rest` behind the terminator.  On success the new name is the template with digits for the letters, no file had it at
    the moment it was created, only it was created, and the object holds it.  On failure nothing was created, and the error
    is one the kernel reported, or EEXIST if no candidate was free. -/
def Creates (w : World) (fs : Files) (pre suf rest : List Nat) (perm access : Nat) (o : Out) : Prop :=
  (∃ k, k < 999999 ∧ o.err = 0 ∧ o.access = access ∧ w.deny k (pre ++ sixDigits k ++ suf) = none ∧
    o.mem = pre ++ sixDigits k ++ suf ++ 0 :: rest ∧
    ¬ (w.before fs k).has (pre ++ sixDigits k ++ suf) ∧
    o.files = (pre ++ sixDigits k ++ suf, perm) :: w.before fs k) ∨
  (∃ k, k < 999999 ∧ o.err ≠ 0 ∧ w.deny k (pre ++ sixDigits k ++ suf) = some o.err ∧ o.files = w.before fs k) ∨
  (o.err = 17 ∧ o.files = w.before fs 999998 ∧
    ∀ k, k < 999999 → (w.before fs k).has (pre ++ sixDigits k ++ suf) ∨
      w.deny k (pre ++ sixDigits k ++ suf) = some 17)

/-! ## The kernel -/

/-- `open(path, flags, mode)`: sysdeps/linux/generic/sysdeps.cpp L330-336, with the meaning POSIX gives O_CREAT (64) and
    O_EXCL (128); 17 is EEXIST, 2 is ENOENT.  Gives the files, the error and the access mode of the descriptor. -/
def kopen (deny : List Nat → Option Nat) (fs : Files) (path : List Nat) (flags : BitVec 32) (mode : Nat) :
    Files × Nat × Nat :=
  match deny path with
  | some e => (fs, e, 0)
  | none =>
    if fs.any (fun f => f.1 == path) then
      if flags.getLsbD 6 ∧ flags.getLsbD 7 then (fs, 17, 0) else (fs, 0, (flags &&& 3).toNat)
    else if flags.getLsbD 6 then ((path, mode) :: fs, 0, (flags &&& 3).toNat)
    else (fs, 2, 0)

/-- `mkdir(path, mode)` -/
def kmkdir (deny : List Nat → Option Nat) (fs : Files) (path : List Nat) (mode : Nat) : Files × Nat :=
  match deny path with
  | some e => (fs, e)
  | none => if fs.any (fun f => f.1 == path) then (fs, 17) else ((path, mode) :: fs, 0)

/-- `unlinkat(AT_FDCWD, path, 0)` -/
def kunlink (deny : List Nat → Option Nat) (fs : Files) (path : List Nat) : Files × Nat :=
  match deny path with
  | some e => (fs, e)
  | none => if fs.any (fun f => f.1 == path) then (fs.filter (fun f => f.1 != path), 0) else (fs, 2)

/-! ## The code -/

/-- `p[i]`, for an index in the object. -/
def rd (m : List Nat) (i : Int) : Res Nat :=
  if i < 0 then .ub else match m[i.toNat]? with | some c => .ok c | none => .ub

/-- `p[i] = c` -/
def wr (m : List Nat) (i : Int) (c : Nat) : Res (List Nat) :=
  if i < 0 ∨ m.length ≤ i.toNat then .ub else .ok (m.set i.toNat c)

/-- Stores bytes from index `i` on. -/
def wrs (m : List Nat) (i : Int) : List Nat → Res (List Nat)
  | [] => .ok m
  | c :: cs => (wr m i c).bind fun m' => wrs m' (i + 1) cs

/-- `strlen` -/
def strlen : List Nat → Res Nat
  | [] => .ub
  | c :: m => if c = 0 then .ok 0 else (strlen m).bind fun n => .ok (n + 1)

/-- The decimal digits of `%zu`; the first argument bounds their number. -/
def digitsF : Nat → Nat → List Nat
  | 0, n => [48 + n]
  | f + 1, n => if n < 10 then [48 + n] else digitsF f (n / 10) ++ [48 + n % 10]

def digits (n : Nat) : List Nat := digitsF n n

/-- `%06zu` -/
def fmt06 (n : Nat) : List Nat := List.replicate (6 - (digits n).length) 48 ++ digits n

/-- `sprintf(p + i, "%06zu", n)`: gives the object and the number of characters. -/
def sprintf06 (m : List Nat) (i : Int) (n : Nat) : Res (List Nat × Nat) :=
  (wrs m i (fmt06 n ++ [0])).bind fun m' => .ok (m', (fmt06 n).length)

/-- The string in the object. -/
def cstr (m : List Nat) : List Nat := m.takeWhile (· != 0)

/-- stdlib.cpp L20-24, posix_stdlib.cpp L210-215: from index `start + i`, `k` more characters; false if one is not an X -/
def checkX (m : List Nat) (start : Int) : Nat → Nat → Res Bool
  | 0, _ => .ok true
  | k + 1, i => (rd m (start + i)).bind fun c => if c = 88 then checkX m start k (i + 1) else .ok false

/-- stdlib.cpp L28-32, the body of the loop up to the call: the new object and the result of `open`.  O_RDWR is 2, O_CREAT
    is 64, O_EXCL is 128. -/
def attempt (deny : List Nat → Option Nat) (fs : Files) (m : List Nat) (n suffixlen : Int) (flags : BitVec 32) (i : Nat) :
    Res (List Nat × Files × Nat × Nat) :=
  (rd m (n - suffixlen)).bind fun sfx =>                                          -- L28
  (sprintf06 m (n - (6 + suffixlen)) i).bind fun r =>                             -- L29
  (ensure (r.2 = 6)).bind fun _ =>
  (wr r.1 (n - suffixlen) sfx).bind fun m =>                                      -- L30
  .ok (m, kopen deny fs (cstr m) (2 ||| 64 ||| 128 ||| flags) 0o600)              -- L32

/-- stdlib.cpp L27-39, from attempt `i` on, with `left` attempts left. -/
def search (w : World) (n suffixlen : Int) (flags : BitVec 32) : Nat → Nat → List Nat → Files → Res Out
  | 0, _, m, fs => .ok ⟨m, fs, 17, 0⟩                                             -- L39
  | left + 1, i, m, fs =>
    (attempt (w.deny i) (w.env i fs) m n suffixlen flags i).bind fun r =>
    if r.2.2.1 = 0 then .ok ⟨r.1, r.2.1, 0, r.2.2.2⟩                              -- L32-33
    else if r.2.2.1 ≠ 17 then .ok ⟨r.1, r.2.1, r.2.2.1, 0⟩                        -- L34-36
    else search w n suffixlen flags left (i + 1) r.1 r.2.1

/-- stdlib.cpp L12-40 `mlibc::mkostemps`; O_WRONLY is 1, EINVAL is 22.  `6 + suffixlen` is a `size_t` in L14 and an `int`
    later. -/
def mkostemps (w : World) (fs : Files) (m : List Nat) (suffixlen : Int) (flags : BitVec 32) : Res Out :=
  (strlen m).bind fun n =>
  if (n : Int) < (6 + suffixlen) % 2 ^ 64 then .ok ⟨m, fs, 22, 0⟩                 -- L14-16
  else if 6 + suffixlen > 2 ^ 31 - 1 then .ub
  else
    (checkX m (n - (6 + suffixlen)) 6 0).bind fun good =>                         -- L20-24
    if good then search w n suffixlen (flags &&& ~~~ 1) 999999 0 m fs             -- L18, L27-39
    else .ok ⟨m, fs, 22, 0⟩

/-- posix_stdlib.cpp L219-227 -/
def dsearch (w : World) (n : Int) : Nat → Nat → List Nat → Files → Res Out
  | 0, _, m, fs => .ok ⟨m, fs, 17, 0⟩                                             -- L229-230
  | left + 1, i, m, fs =>
    (sprintf06 m (n - 6) i).bind fun r =>                                         -- L220
    (ensure (r.2 = 6)).bind fun _ =>
    let k := kmkdir (w.deny i) (w.env i fs) (cstr r.1) 0o700                      -- L221
    if k.2 = 0 then .ok ⟨r.1, k.1, 0, 0⟩                                          -- L221-222
    else if k.2 ≠ 17 then .ok ⟨r.1, k.1, k.2, 0⟩                                  -- L223-226
    else dsearch w n left (i + 1) r.1 k.1

/-- posix_stdlib.cpp L203-231 `mkdtemp`: error 0 stands for the template as result, another for a null pointer and errno. -/
def mkdtemp (w : World) (fs : Files) (m : List Nat) : Res Out :=
  (strlen m).bind fun n =>
  (ensure (n ≥ 6)).bind fun _ =>                                                  -- L205
  (checkX m ((n : Int) - 6) 6 0).bind fun good =>                                 -- L210-215
  if good then dsearch w n 999999 0 m fs                                          -- L218-230
  else .ok ⟨m, fs, 22, 0⟩

/-! ## Proofs -/

theorem bok {α β : Type} (a : α) (f : α → Res β) : (Res.ok a).bind f = f a := rfl

theorem strlen_eq (t rest : List Nat) (h : 0 ∉ t) : strlen (t ++ 0 :: rest) = .ok t.length := by
  induction t with
  | nil => simp [strlen]
  | cons a t ih =>
    simp at h
    have ha : a ≠ 0 := fun e => h.1 e.symm
    simp [strlen, ha, ih h.2, bok]

theorem cstr_eq (t rest : List Nat) (h : 0 ∉ t) : cstr (t ++ 0 :: rest) = t := by
  induction t with
  | nil => simp [cstr]
  | cons a t ih =>
    simp at h
    have ha : a ≠ 0 := fun e => h.1 e.symm
    have := ih h.2
    unfold cstr at this ⊢
    simp [ha, this]

theorem rd_at (a : List Nat) (x : Nat) (b : List Nat) (i : Int) (hi : i = a.length) : rd (a ++ x :: b) i = .ok x := by
  subst hi
  simp [rd]

theorem wr_at (a : List Nat) (x y : Nat) (b : List Nat) (i : Int) (hi : i = a.length) :
    wr (a ++ x :: b) i y = .ok (a ++ y :: b) := by
  subst hi
  simp [wr]

theorem wrs_at (cs : List Nat) : ∀ (a b c : List Nat) (i : Int), i = a.length → cs.length = b.length →
    wrs (a ++ (b ++ c)) i cs = .ok (a ++ (cs ++ c)) := by
  induction cs with
  | nil => intro a b c i _ hb; cases b with | nil => rfl | cons _ _ => simp at hb
  | cons x cs ih =>
    intro a b c i hi hb
    cases b with
    | nil => simp at hb
    | cons y b =>
      simp only [wrs, List.cons_append]
      rw [wr_at _ _ _ _ _ hi, bok]
      have := ih (a ++ [x]) b c (i + 1) (by simp; omega) (by simpa using hb)
      simpa using this

/-- `w` digits of a number -/
def fixed : Nat → Nat → List Nat
  | 0, _ => []
  | w + 1, n => fixed w (n / 10) ++ [48 + n % 10]

theorem fixed_zero (w : Nat) : fixed w 0 = List.replicate w 48 := by
  induction w with
  | zero => rfl
  | succ w ih => simp [fixed, ih, List.replicate_succ']

theorem fixed_len (w n : Nat) : (fixed w n).length = w := by
  induction w generalizing n with
  | zero => rfl
  | succ w ih => simp [fixed, ih]

theorem pad_digitsF : ∀ (f n w : Nat), n ≤ f → n < 10 ^ (w + 1) →
    List.replicate (w + 1 - (digitsF f n).length) 48 ++ digitsF f n = fixed (w + 1) n := by
  intro f
  induction f with
  | zero =>
    intro n w h _
    have : n = 0 := by omega
    subst this
    simp [digitsF, fixed, fixed_zero]
  | succ f ih =>
    intro n w hf hw
    rw [digitsF]
    by_cases h : n < 10
    · simp [h, fixed, Nat.div_eq_of_lt h, fixed_zero, Nat.mod_eq_of_lt h]
    · rw [if_neg h]
      cases w with
      | zero => simp at hw; omega
      | succ w =>
        have h2 : n / 10 < 10 ^ (w + 1) := by
          rw [Nat.pow_succ] at hw
          omega
        have := ih (n / 10) w (by omega) h2
        rw [fixed, ← this]
        simp

theorem pad_digits (n w : Nat) (h : n < 10 ^ (w + 1)) :
    List.replicate (w + 1 - (digits n).length) 48 ++ digits n = fixed (w + 1) n := pad_digitsF n n w (Nat.le_refl _) h

theorem fmt06_eq (k : Nat) (h : k < 1000000) : fmt06 k = sixDigits k := by
  have := pad_digits k 5 (by omega)
  unfold fmt06
  rw [this]
  simp [fixed, sixDigits, Nat.div_div_eq_div_mul]

theorem six_len (k : Nat) : (sixDigits k).length = 6 := rfl

theorem six_nz (k : Nat) : 0 ∉ sixDigits k := by simp [sixDigits]; omega

theorem any_iff (fs : Files) (p : List Nat) : (fs.any fun f => f.1 == p) = true ↔ fs.has p := by
  simp [Files.has]

theorem sprintf_at (pre six : List Nat) (x : Nat) (t : List Nat) (k : Nat) (hk : k < 1000000) (h6 : six.length = 6)
    (i : Int) (hi : i = pre.length) :
    sprintf06 (pre ++ (six ++ x :: t)) i k = .ok (pre ++ (sixDigits k ++ 0 :: t), 6) := by
  have := wrs_at (sixDigits k ++ [0]) pre (six ++ [x]) t i hi (by simp [six_len, h6])
  simp only [List.append_assoc, List.singleton_append] at this
  simp [sprintf06, fmt06_eq k hk, this, bok, six_len]

/-- One attempt. -/
theorem attempt_at (deny : List Nat → Option Nat) (fs : Files) (pre six suf rest : List Nat) (h6 : six.length = 6)
    (hp : 0 ∉ pre) (hs : 0 ∉ suf) (flags : BitVec 32) (k : Nat) (hk : k < 1000000) (n : Int)
    (hn : n = pre.length + 6 + suf.length) :
    attempt deny fs (pre ++ (six ++ (suf ++ 0 :: rest))) n suf.length flags k =
      .ok (pre ++ (sixDigits k ++ (suf ++ 0 :: rest)),
        kopen deny fs (pre ++ (sixDigits k ++ suf)) (2 ||| 64 ||| 128 ||| flags) 0o600) := by
  obtain ⟨x, t, ht⟩ : ∃ x t, suf ++ 0 :: rest = x :: t := by
    cases suf with
    | nil => exact ⟨_, _, rfl⟩
    | cons a s => exact ⟨_, _, rfl⟩
  have hc : cstr (pre ++ (sixDigits k ++ (suf ++ 0 :: rest))) = pre ++ (sixDigits k ++ suf) := by
    have := cstr_eq (pre ++ (sixDigits k ++ suf)) rest (by simp only [List.mem_append]; have := six_nz k; grind)
    simpa using this
  rw [ht] at hc ⊢
  have hrd := rd_at (pre ++ six) x t (n - suf.length) (by simp [h6]; omega)
  have hwr := wr_at (pre ++ sixDigits k) 0 x t (n - suf.length) (by simp [six_len]; omega)
  simp only [List.append_assoc] at hrd hwr
  unfold attempt
  rw [hrd, bok, sprintf_at pre six x t k hk h6 _ (by omega), bok]
  simp only [decide_true, ensure_true, bok]
  rw [hwr, bok, hc]

/-- The access mode is reading and writing whatever the flags say. -/
theorem access_two (flags : BitVec 32) :
    ((2 ||| 64 ||| 128 ||| (flags &&& ~~~ 1#32)) &&& 3#32).toNat = 2 := by
  have : (2 ||| 64 ||| 128 ||| (flags &&& ~~~ 1#32)) &&& 3#32 = 2#32 := by
    apply BitVec.eq_of_getLsbD_eq
    intro i hi
    have : i = 0 ∨ i = 1 ∨ 2 ≤ i := by omega
    rcases this with rfl | rfl | h
    · simp
    · simp
    · have h3 : (3#32).getLsbD i = false := by
        rw [BitVec.getLsbD_ofNat]
        simp [Nat.testBit_lt_two_pow (show 3 < 2 ^ i from Nat.lt_of_lt_of_le (by decide) (Nat.pow_le_pow_right (by decide) h))]
      have h2 : (2#32).getLsbD i = false := by
        rw [BitVec.getLsbD_ofNat]
        simp [Nat.testBit_lt_two_pow (show 2 < 2 ^ i from Nat.lt_of_lt_of_le (by decide) (Nat.pow_le_pow_right (by decide) h))]
      simp [h3, h2]
  rw [this]; rfl

theorem flags_bits (flags : BitVec 32) :
    (2 ||| 64 ||| 128 ||| flags).getLsbD 6 = true ∧ (2 ||| 64 ||| 128 ||| flags).getLsbD 7 = true := by
  constructor <;> simp

theorem kopen_excl (deny : List Nat → Option Nat) (fs : Files) (p : List Nat) (flags : BitVec 32) (mode : Nat) :
    (∃ e, deny p = some e ∧ kopen deny fs p (2 ||| 64 ||| 128 ||| (flags &&& ~~~ 1#32)) mode = (fs, e, 0)) ∨
    (deny p = none ∧ fs.has p ∧ kopen deny fs p (2 ||| 64 ||| 128 ||| (flags &&& ~~~ 1#32)) mode = (fs, 17, 0)) ∨
    (deny p = none ∧ ¬ fs.has p ∧
      kopen deny fs p (2 ||| 64 ||| 128 ||| (flags &&& ~~~ 1#32)) mode = ((p, mode) :: fs, 0, 2)) := by
  have ha : ((2 ||| 64 ||| 128 ||| (flags &&& ~~~ 1#32)) &&& 3).toNat = 2 := access_two flags
  unfold kopen
  cases h : deny p with
  | some e => exact Or.inl ⟨e, rfl, rfl⟩
  | none =>
    by_cases hh : fs.has p
    · exact Or.inr (Or.inl ⟨rfl, hh, by simp only; rw [if_pos ((any_iff _ _).2 hh), if_pos (flags_bits _)]⟩)
    · refine Or.inr (Or.inr ⟨rfl, hh, ?_⟩)
      simp only
      rw [if_neg (fun x => hh ((any_iff _ _).1 x)), if_pos (flags_bits _).1, ha]

/-- The files after `i` attempts without success -/
def World.upto (w : World) (fs : Files) : Nat → Files
  | 0 => fs
  | i + 1 => w.before fs i

theorem before_upto (w : World) (fs : Files) (i : Nat) : w.before fs i = w.env i (w.upto fs i) := by
  cases i <;> rfl

theorem search_at (w : World) (h0 : ∀ i p, w.deny i p ≠ some 0) (fs : Files) (pre suf rest : List Nat)
    (hp : 0 ∉ pre) (hs : 0 ∉ suf) (flags : BitVec 32) (n : Int)
    (hn : n = pre.length + 6 + suf.length) : ∀ (left i : Nat) (six : List Nat), i + left = 999999 → six.length = 6 →
    (∀ k, k < i → (w.before fs k).has (pre ++ sixDigits k ++ suf) ∨ w.deny k (pre ++ sixDigits k ++ suf) = some 17) →
    ∃ o, search w n suf.length (flags &&& ~~~ 1#32) left i (pre ++ (six ++ (suf ++ 0 :: rest))) (w.upto fs i) = .ok o ∧
      Creates w fs pre suf rest 0o600 2 o := by
  intro left
  induction left with
  | zero =>
    intro i six hi h6 hk
    have : i = 999999 := by omega
    subst this
    exact ⟨_, rfl, Or.inr (Or.inr ⟨rfl, rfl, hk⟩)⟩
  | succ left ih =>
    intro i six hi h6 hk
    simp only [search]
    rw [attempt_at _ _ pre six suf rest h6 hp hs _ i (by omega) n hn, bok, ← before_upto]
    have next : (w.before fs i).has (pre ++ sixDigits i ++ suf) ∨ w.deny i (pre ++ sixDigits i ++ suf) = some 17 →
        ∃ o, search w n suf.length (flags &&& ~~~ 1#32) left (i + 1) (pre ++ (sixDigits i ++ (suf ++ 0 :: rest)))
          (w.before fs i) = .ok o ∧ Creates w fs pre suf rest 0o600 2 o := by
      intro hx
      exact ih (i + 1) (sixDigits i) (by omega) rfl (by
          intro k hk'
          by_cases hki : k = i
          · subst hki; exact hx
          · exact hk k (by omega))
    simp only [← List.append_assoc] at next ⊢
    rcases kopen_excl (w.deny i) (w.before fs i) (pre ++ sixDigits i ++ suf) flags 0o600 with
      ⟨e, hd, hk'⟩ | ⟨hd, hh, hk'⟩ | ⟨hd, hh, hk'⟩
    · rw [hk']
      have he : e ≠ 0 := fun h => h0 _ _ (h ▸ hd)
      simp only [he, if_false]
      by_cases h17 : e = 17
      · subst h17
        simp only [ne_eq, not_true, if_false]
        exact next (Or.inr hd)
      · simp only [ne_eq, h17, not_false_eq_true, if_true]
        exact ⟨_, rfl, Or.inr (Or.inl ⟨i, by omega, he, hd, rfl⟩)⟩
    · rw [hk']
      exact next (Or.inl hh)
    · rw [hk']
      simp only [if_true]
      exact ⟨_, rfl, Or.inl ⟨i, by omega, rfl, rfl, hd, by simp, hh, rfl⟩⟩

theorem checkX_at (start : Int) (rest : List Nat) : ∀ (k i : Nat) (a t : List Nat), start + i = a.length →
    checkX (a ++ (t ++ 0 :: rest)) start k i = .ok (decide ((t ++ 0 :: rest).take k = List.replicate k 88)) := by
  intro k
  induction k with
  | zero => intro i a t _; simp [checkX]
  | succ k ih =>
    intro i a t h
    cases t with
    | nil => simp [checkX, rd_at _ _ _ _ h, bok, List.replicate_succ]
    | cons c t =>
      simp only [List.cons_append]
      rw [checkX, rd_at _ _ _ _ h, bok]
      by_cases hc : c = 88
      · subst hc
        have := ih (i + 1) (a ++ [88]) t (by simp; omega)
        simp only [List.append_assoc, List.singleton_append] at this
        simp [this, List.replicate_succ]
      · simp [hc, List.replicate_succ]

theorem checkX_true (pre t rest : List Nat) :
    checkX (pre ++ ([88, 88, 88, 88, 88, 88] ++ (t ++ 0 :: rest))) pre.length 6 0 = .ok true := by
  have := checkX_at pre.length rest 6 0 pre ([88, 88, 88, 88, 88, 88] ++ t) (by simp)
  rw [List.append_assoc] at this
  rw [this]
  congr 1

theorem take_X (t rest : List Nat) : ∀ k, (t ++ 0 :: rest).take k = List.replicate k 88 →
    ∃ suf, t = List.replicate k 88 ++ suf := by
  induction t with
  | nil =>
    intro k h
    cases k with
    | zero => exact ⟨[], rfl⟩
    | succ k => simp [List.replicate_succ] at h
  | cons c t ih =>
    intro k h
    cases k with
    | zero => exact ⟨c :: t, rfl⟩
    | succ k =>
      simp [List.replicate_succ] at h
      obtain ⟨suf, hs⟩ := ih k h.2
      exact ⟨suf, by simp [List.replicate_succ, h.1, hs]⟩

/-- **C118.** `mkstemp` and its variants create a file that did not exist, with a name made from the template, for its owner
    only, opened for reading and writing whatever the flags; if they fail no file is left. -/
theorem mkostemps_creates (w : World) (h0 : ∀ i p, w.deny i p ≠ some 0) (fs : Files) (text pre suf rest : List Nat)
    (len : Int) (ht : Template text len pre suf) (hz : 0 ∉ text) (hl : text.length < 2 ^ 31) (flags : BitVec 32) :
    ∃ o, mkostemps w fs (text ++ 0 :: rest) len flags = .ok o ∧ Creates w fs pre suf rest 0o600 2 o := by
  obtain ⟨rfl, rfl⟩ := ht
  have hp : 0 ∉ pre := fun h => hz (by simp [h])
  have hs : 0 ∉ suf := fun h => hz (by simp [h])
  have hlen : (pre ++ [88, 88, 88, 88, 88, 88] ++ suf).length = pre.length + 6 + suf.length := by simp; omega
  rw [hlen] at hl
  unfold mkostemps
  rw [strlen_eq _ _ hz, bok, hlen, if_neg (by omega), if_neg (by omega)]
  have e : (((pre.length + 6 + suf.length : Nat) : Int) - (6 + suf.length)) = pre.length := by omega
  simp only [List.append_assoc]
  rw [e, checkX_true, bok, if_pos rfl]
  exact search_at w h0 fs pre suf rest hp hs flags _ (by omega) 999999 0 [88, 88, 88, 88, 88, 88] rfl rfl
    (fun k hk => absurd hk (by omega))

/-- **C118.** Every other text is rejected with EINVAL, with no change to it and no call to the kernel. -/
theorem mkostemps_invalid (w : World) (fs : Files) (text rest : List Nat) (len : Int)
    (ht : ¬ ∃ pre suf, Template text len pre suf) (hz : 0 ∉ text) (hl : text.length < 2 ^ 31)
    (hr : -2 ^ 31 ≤ len ∧ len < 2 ^ 31) (flags : BitVec 32) :
    mkostemps w fs (text ++ 0 :: rest) len flags = .ok ⟨text ++ 0 :: rest, fs, 22, 0⟩ := by
  unfold mkostemps
  rw [strlen_eq _ _ hz, bok]
  split
  · rfl
  · rename_i h1
    have hs : 0 ≤ 6 + len ∧ 6 + len ≤ text.length := by omega
    rw [if_neg (by omega)]
    obtain ⟨j, hj⟩ : ∃ j : Nat, (text.length : Int) - (6 + len) = j := ⟨((text.length : Int) - (6 + len)).toNat, by omega⟩
    have hjl : j ≤ text.length := by omega
    have hc := checkX_at j rest 6 0 (text.take j) (text.drop j) (by simp; omega)
    rw [← List.append_assoc, List.take_append_drop] at hc
    rw [hj, hc, bok, if_neg]
    intro hd
    obtain ⟨suf, hsuf⟩ := take_X _ _ _ (of_decide_eq_true hd)
    have hsl : (text.drop j).length = 6 + suf.length := by rw [hsuf]; simp; omega
    rw [List.length_drop] at hsl
    apply ht
    refine ⟨text.take j, suf, ?_, by omega⟩
    have := List.take_append_drop j text
    rw [hsuf] at this
    rw [List.append_assoc]
    exact this.symm

theorem kmkdir_eq (deny : List Nat → Option Nat) (fs : Files) (p : List Nat) (mode : Nat) :
    (∃ e, deny p = some e ∧ kmkdir deny fs p mode = (fs, e)) ∨
    (deny p = none ∧ fs.has p ∧ kmkdir deny fs p mode = (fs, 17)) ∨
    (deny p = none ∧ ¬ fs.has p ∧ kmkdir deny fs p mode = ((p, mode) :: fs, 0)) := by
  unfold kmkdir
  cases h : deny p with
  | some e => exact Or.inl ⟨e, rfl, rfl⟩
  | none =>
    by_cases hh : fs.has p
    · exact Or.inr (Or.inl ⟨rfl, hh, by simp only; rw [if_pos ((any_iff _ _).2 hh)]⟩)
    · exact Or.inr (Or.inr ⟨rfl, hh, by simp only; rw [if_neg (fun x => hh ((any_iff _ _).1 x))]⟩)

theorem dsearch_at (w : World) (h0 : ∀ i p, w.deny i p ≠ some 0) (fs : Files) (pre rest : List Nat)
    (hp : 0 ∉ pre) (n : Int) (hn : n = pre.length + 6) : ∀ (left i : Nat) (six : List Nat), i + left = 999999 → six.length = 6 →
    (∀ k, k < i → (w.before fs k).has (pre ++ sixDigits k ++ []) ∨ w.deny k (pre ++ sixDigits k ++ []) = some 17) →
    ∃ o, dsearch w n left i (pre ++ (six ++ 0 :: rest)) (w.upto fs i) = .ok o ∧
      Creates w fs pre [] rest 0o700 0 o := by
  intro left
  induction left with
  | zero =>
    intro i six hi h6 hk
    have : i = 999999 := by omega
    subst this
    exact ⟨_, rfl, Or.inr (Or.inr ⟨rfl, rfl, hk⟩)⟩
  | succ left ih =>
    intro i six hi h6 hk
    have hc : cstr (pre ++ (sixDigits i ++ 0 :: rest)) = pre ++ sixDigits i := by
      have := cstr_eq (pre ++ sixDigits i) rest (by simp only [List.mem_append]; have := six_nz i; grind)
      simpa using this
    simp only [dsearch]
    rw [sprintf_at pre six 0 rest i (by omega) h6 _ (by omega), bok]
    simp only [decide_true, ensure_true, bok]
    rw [hc, ← before_upto]
    have next : (w.before fs i).has (pre ++ sixDigits i ++ []) ∨ w.deny i (pre ++ sixDigits i ++ []) = some 17 →
        ∃ o, dsearch w n left (i + 1) (pre ++ (sixDigits i ++ 0 :: rest)) (w.before fs i) = .ok o ∧
          Creates w fs pre [] rest 0o700 0 o := by
      intro hx
      have := ih (i + 1) (sixDigits i) (by omega) rfl (by
          intro k hk'
          by_cases hki : k = i
          · subst hki; exact hx
          · exact hk k (by omega))
      exact this
    rcases kmkdir_eq (w.deny i) (w.before fs i) (pre ++ sixDigits i) 0o700 with ⟨e, hd, hk'⟩ | ⟨hd, hh, hk'⟩ | ⟨hd, hh, hk'⟩
    · rw [hk']
      have he : e ≠ 0 := fun h => h0 _ _ (h ▸ hd)
      simp only [he, if_false]
      by_cases h17 : e = 17
      · subst h17
        simpa using next (Or.inr (by simpa using hd))
      · simp only [ne_eq, h17, not_false_eq_true, if_true]
        exact ⟨_, rfl, Or.inr (Or.inl ⟨i, by omega, he, by simpa using hd, rfl⟩)⟩
    · rw [hk']
      simpa using next (Or.inl (by simpa using hh))
    · rw [hk']
      simp only [if_true]
      exact ⟨_, rfl, Or.inl ⟨i, by omega, rfl, rfl, by simpa using hd, by simp, by simpa using hh, by simp⟩⟩

/-- **C118, part.** `mkdtemp` creates a directory that did not exist, for its owner only, in the same way.  Missing: templates
    of fewer than six characters, see `mkdtemp_short_violated`. -/
theorem mkdtemp_creates (w : World) (h0 : ∀ i p, w.deny i p ≠ some 0) (fs : Files) (text pre rest : List Nat)
    (ht : Template text 0 pre []) (hz : 0 ∉ text) :
    ∃ o, mkdtemp w fs (text ++ 0 :: rest) = .ok o ∧ Creates w fs pre [] rest 0o700 0 o := by
  obtain ⟨rfl, -⟩ := ht
  have hp : 0 ∉ pre := fun h => hz (by simp [h])
  have hlen : (pre ++ [88, 88, 88, 88, 88, 88] ++ []).length = pre.length + 6 := by simp
  unfold mkdtemp
  rw [strlen_eq _ _ hz, bok, hlen]
  simp only [show (pre.length + 6 ≥ 6) = True from by simp, decide_true, ensure_true, bok]
  have e : (((pre.length + 6 : Nat) : Int) - 6) = pre.length := by omega
  have hx := checkX_true pre [] rest
  simp only [List.append_assoc, List.append_nil, List.nil_append] at hx ⊢
  rw [e, hx, bok, if_pos rfl]
  exact dsearch_at w h0 fs pre rest hp _ (by omega) 999999 0 [88, 88, 88, 88, 88, 88] rfl rfl
    (fun k hk => absurd hk (by omega))

/-- **C118, part.** `mkdtemp` rejects every other text of at least six characters with EINVAL. -/
theorem mkdtemp_invalid_partial (w : World) (fs : Files) (text rest : List Nat)
    (ht : ¬ ∃ pre, Template text 0 pre []) (hz : 0 ∉ text) (h6 : 6 ≤ text.length) :
    mkdtemp w fs (text ++ 0 :: rest) = .ok ⟨text ++ 0 :: rest, fs, 22, 0⟩ := by
  unfold mkdtemp
  rw [strlen_eq _ _ hz, bok]
  simp only [show (text.length ≥ 6) = True from by simpa using h6, decide_true, ensure_true, bok]
  obtain ⟨j, hj⟩ : ∃ j : Nat, (text.length : Int) - 6 = j := ⟨text.length - 6, by omega⟩
  have hc := checkX_at j rest 6 0 (text.take j) (text.drop j) (by simp; omega)
  rw [← List.append_assoc, List.take_append_drop] at hc
  rw [hj, hc, bok, if_neg]
  intro hd
  obtain ⟨suf, hsuf⟩ := take_X _ _ _ (of_decide_eq_true hd)
  have hsl : (text.drop j).length = 6 + suf.length := by rw [hsuf]; simp; omega
  rw [List.length_drop] at hsl
  have hnil : suf = [] := List.length_eq_zero_iff.1 (by omega)
  subst hnil
  apply ht
  refine ⟨text.take j, ?_, rfl⟩
  have := List.take_append_drop j text
  rw [hsuf] at this
  rw [List.append_assoc]
  exact this.symm

/-- **C118 is violated.** A template of fewer than six characters ends the process, where EINVAL is due. -/
theorem mkdtemp_short_violated (w : World) (fs : Files) (text rest : List Nat) (hz : 0 ∉ text) (h : text.length < 6) :
    mkdtemp w fs (text ++ 0 :: rest) = .panic := by
  unfold mkdtemp
  rw [strlen_eq _ _ hz, bok]
  have : decide (text.length ≥ 6) = false := by simp; omega
  rw [this]
  rfl

/-! ## Several callers at the same time -/

/-- A caller of `mkostemps` in its loop (stdlib.cpp L27-37): its object, `n`, `suffixlen`, `flags`, `i`, and the name it
    returned with, if it has succeeded. -/
structure Caller where
  mem : List Nat
  n : Int
  len : Int
  flags : BitVec 32
  i : Nat
  name : Option (List Nat)

/-- Any number of callers and the files. -/
structure Sys where
  files : Files
  callers : Nat → Caller

/-- A caller at the start of its loop. -/
def Caller.Start (c : Caller) : Prop :=
  ∃ pre suf rest, 0 ∉ pre ∧ 0 ∉ suf ∧ c.mem = pre ++ [88, 88, 88, 88, 88, 88] ++ suf ++ 0 :: rest ∧
    c.n = pre.length + 6 + suf.length ∧ c.len = suf.length ∧ c.i = 0 ∧ c.name = none

/-- What a caller is after an attempt. L32-36 -/
def Caller.after (c : Caller) (r : List Nat × Files × Nat × Nat) : Caller :=
  if r.2.2.1 = 0 then { c with mem := r.1, name := some (cstr r.1) }
  else if r.2.2.1 ≠ 17 then { c with mem := r.1, i := 999999 }
  else { c with mem := r.1, i := c.i + 1 }

/-- One caller makes an attempt, or other programs change the files; they do not remove a file a caller has got. -/
inductive Step : Sys → Sys → Prop
  | attempt (s : Sys) (k : Nat) (deny : List Nat → Option Nat) (r : List Nat × Files × Nat × Nat)
      (hd : ∀ p, deny p ≠ some 0) (hn : (s.callers k).name = none) (hi : (s.callers k).i < 999999)
      (h : attempt deny s.files (s.callers k).mem (s.callers k).n (s.callers k).len ((s.callers k).flags &&& ~~~ 1#32)
        (s.callers k).i = .ok r) :
      Step s ⟨r.2.1, fun j => if j = k then (s.callers k).after r else s.callers j⟩
  | others (s : Sys) (fs : Files) (h : ∀ k name, (s.callers k).name = some name → s.files.has name → fs.has name) :
      Step s ⟨fs, s.callers⟩

inductive Reach (s0 : Sys) : Sys → Prop
  | init : Reach s0 s0
  | step {s t} : Reach s0 s → Step s t → Reach s0 t

def Caller.Ok (c : Caller) : Prop :=
  ∃ pre six suf rest, six.length = 6 ∧ 0 ∉ pre ∧ 0 ∉ suf ∧ c.mem = pre ++ (six ++ (suf ++ 0 :: rest)) ∧
    c.n = pre.length + 6 + suf.length ∧ c.len = suf.length

def Sys.Inv (s : Sys) : Prop :=
  (∀ k, (s.callers k).Ok) ∧
  (∀ k name, (s.callers k).name = some name → s.files.has name) ∧
  (∀ j k x y, j ≠ k → (s.callers j).name = some x → (s.callers k).name = some y → x ≠ y)

theorem has_cons (fs : Files) (p q : List Nat) (m : Nat) (h : fs.has p) : Files.has ((q, m) :: fs) p := by
  obtain ⟨a, ha⟩ := h
  exact ⟨a, List.mem_cons_of_mem _ ha⟩

theorem inv_step {s t : Sys} (hi : s.Inv) (h : Step s t) : t.Inv := by
  obtain ⟨h1, h2, h3⟩ := hi
  cases h with
  | others fs h => exact ⟨h1, fun k name hk => h k name hk (h2 k name hk), h3⟩
  | attempt k deny r hd hn hlt h =>
    obtain ⟨pre, six, suf, rest, h6, hp, hs, hm, hnn, hl⟩ := h1 k
    rw [hm, hl, attempt_at deny _ pre six suf rest h6 hp hs _ _ (by omega) _ hnn] at h
    have hc : cstr (pre ++ (sixDigits (s.callers k).i ++ (suf ++ 0 :: rest))) = pre ++ (sixDigits (s.callers k).i ++ suf) := by
      have := cstr_eq (pre ++ (sixDigits (s.callers k).i ++ suf)) rest
        (by simp only [List.mem_append]; have := six_nz (s.callers k).i; grind)
      simpa using this
    have hok : ∀ c : Caller, c.mem = pre ++ (sixDigits (s.callers k).i ++ (suf ++ 0 :: rest)) → c.n = (s.callers k).n →
        c.len = (s.callers k).len → c.Ok := fun c hm hn' hl' =>
      ⟨pre, sixDigits (s.callers k).i, suf, rest, rfl, hp, hs, hm, hn' ▸ hnn, hl' ▸ hl⟩
    -- a step that changes no file and gives no name
    have same : ∀ c : Caller, c.Ok → c.name = none → (Sys.mk s.files fun j => if j = k then c else s.callers j).Inv := by
      intro c hcok hcn
      refine ⟨?_, ?_, ?_⟩
      · intro j
        by_cases hj : j = k <;> simp [hj, hcok, h1]
      · intro j name hj
        by_cases hjk : j = k
        · simp [hjk, hcn] at hj
        · simp [hjk] at hj
          exact h2 j name hj
      · intro i j x y hij hx hy
        by_cases hik : i = k
        · simp [hik, hcn] at hx
        · by_cases hjk : j = k
          · simp [hjk, hcn] at hy
          · simp [hik] at hx
            simp [hjk] at hy
            exact h3 i j x y hij hx hy
    injection h with h
    rcases kopen_excl deny s.files (pre ++ (sixDigits (s.callers k).i ++ suf)) (s.callers k).flags 0o600 with
      ⟨e, hd', hk'⟩ | ⟨hd', hh, hk'⟩ | ⟨hd', hh, hk'⟩
    · rw [hk'] at h
      subst h
      have he : e ≠ 0 := fun h => hd _ (h ▸ hd')
      apply same
      · apply hok <;> (simp only [Caller.after, he, if_false]; split <;> rfl)
      · simp only [Caller.after, he, if_false]; split <;> exact hn
    · rw [hk'] at h
      subst h
      apply same
      · apply hok <;> simp [Caller.after]
      · simp [Caller.after, hn]
    · rw [hk'] at h
      subst h
      have hname : (Caller.after (s.callers k) (pre ++ (sixDigits (s.callers k).i ++ (suf ++ 0 :: rest)),
          (pre ++ (sixDigits (s.callers k).i ++ suf), 0o600) :: s.files, 0, 2)).name =
            some (pre ++ (sixDigits (s.callers k).i ++ suf)) := by
        simp [Caller.after, hc]
      refine ⟨?_, ?_, ?_⟩
      · intro j
        by_cases hj : j = k
        · simp only [hj, if_true]
          apply hok <;> simp [Caller.after]
        · simp only [hj, if_false]
          exact h1 j
      · intro j name hj
        by_cases hjk : j = k
        · simp only [hjk, if_true] at hj
          rw [hname] at hj
          injection hj with hj
          subst hj
          exact ⟨0o600, List.mem_cons_self⟩
        · simp only [hjk, if_false] at hj
          exact has_cons _ _ _ _ (h2 j name hj)
      · intro i j x y hij hx hy
        by_cases hik : i = k
        · by_cases hjk : j = k
          · exact absurd (hik.trans hjk.symm) hij
          · simp only [hik, if_true] at hx
            simp only [hjk, if_false] at hy
            rw [hname] at hx
            injection hx with hx
            intro hxy
            exact hh (hx ▸ hxy ▸ h2 j y hy)
        · by_cases hjk : j = k
          · simp only [hik, if_false] at hx
            simp only [hjk, if_true] at hy
            rw [hname] at hy
            injection hy with hy
            intro hxy
            exact hh (hy ▸ hxy ▸ h2 i x hx)
          · simp only [hik, if_false] at hx
            simp only [hjk, if_false] at hy
            exact h3 i j x y hij hx hy

/-- **C118.** However the calls of any number of processes and threads interleave, no two of them are given the same file. -/
theorem mkostemps_distinct (s0 s : Sys) (h0 : ∀ k, (s0.callers k).Start) (h : Reach s0 s) (j k : Nat) (hjk : j ≠ k)
    (x y : List Nat) (hx : (s.callers j).name = some x) (hy : (s.callers k).name = some y) : x ≠ y := by
  have hinv : s.Inv := by
    clear hx hy
    induction h with
    | init =>
      refine ⟨?_, ?_, ?_⟩
      · intro k
        obtain ⟨pre, suf, rest, hp, hs, hm, hn, hl, _, _⟩ := h0 k
        exact ⟨pre, [88, 88, 88, 88, 88, 88], suf, rest, rfl, hp, hs, by rw [hm]; simp, hn, hl⟩
      · intro k name hk
        obtain ⟨_, _, _, _, _, _, _, _, _, hnone⟩ := h0 k
        rw [hnone] at hk; simp at hk
      · intro j k x y _ hx
        obtain ⟨_, _, _, _, _, _, _, _, _, hnone⟩ := h0 j
        rw [hnone] at hx; simp at hx
    | step _ hs ih => exact inv_step ih hs
  exact hinv.2.2 j k x y hjk hx hy

/-! ## `tmpfile` and `tmpnam` -/

/-- What `tmpfile` gives: the access mode of the stream, if any, the files and errno. -/
structure FileOut where
  stream : Option Nat
  files : Files
  errno : Nat
deriving DecidableEq, Repr

/-- "/tmp/tmpfile_" -/
def tmpfilePrefix : List Nat := [47, 116, 109, 112, 47, 116, 109, 112, 102, 105, 108, 101, 95]

/-- stdio.cpp L782-800; `w` is the world during `mkostemps`, `env` and `deny` are those of the call of `unlinkat`. -/
def tmpfile (w : World) (env : Files → Files) (deny : List Nat → Option Nat) (fs : Files) (errno : Nat) : Res FileOut :=
  (mkostemps w fs (tmpfilePrefix ++ [88, 88, 88, 88, 88, 88] ++ [0]) 0 0).bind fun o =>      -- L786-787
  if o.err ≠ 0 then .ok ⟨none, o.files, errno⟩                                    -- L788-789
  else
    let u := kunlink deny (env o.files) (cstr o.mem)                              -- L791
    if u.2 ≠ 0 then .ok ⟨none, u.1, u.2⟩                                          -- L792-796
    else .ok ⟨some o.access, u.1, errno⟩                                          -- L798

/-- **C118.** The stream of `tmpfile` is a file that did not exist, open for reading and writing, and its name is gone when the
    function returns. -/
theorem tmpfile_unnamed (w : World) (h0 : ∀ i p, w.deny i p ≠ some 0) (env : Files → Files)
    (deny : List Nat → Option Nat) (hd : ∀ p, deny p ≠ some 0) (fs : Files) (errno : Nat) :
    ∃ o, tmpfile w env deny fs errno = .ok o ∧ ∀ a, o.stream = some a →
      a = 2 ∧ ∃ k, k < 999999 ∧ ¬ (w.before fs k).has (tmpfilePrefix ++ sixDigits k) ∧
        ¬ o.files.has (tmpfilePrefix ++ sixDigits k) ∧
        ∀ f, f.1 ≠ tmpfilePrefix ++ sixDigits k → (f ∈ o.files ↔
          f ∈ env ((tmpfilePrefix ++ sixDigits k, 0o600) :: w.before fs k)) := by
  obtain ⟨o, ho, hc⟩ := mkostemps_creates w h0 fs (tmpfilePrefix ++ [88, 88, 88, 88, 88, 88] ++ []) tmpfilePrefix [] [] 0
    ⟨rfl, rfl⟩ (by decide) (by decide) 0
  rw [List.append_nil] at ho
  unfold tmpfile
  rw [ho, bok]
  rcases hc with ⟨k, hk, he, ha, -, hm, hfree, hfs⟩ | ⟨k, hk, he, -, -⟩ | ⟨he, -, -⟩
  · have hcs : cstr o.mem = tmpfilePrefix ++ sixDigits k := by
      rw [hm, List.append_nil]
      exact cstr_eq _ _ (by simp only [List.mem_append]; have := six_nz k; have : 0 ∉ tmpfilePrefix := by decide
                            grind)
    rw [List.append_nil] at hfree hfs
    rw [if_neg (by simp [he]), hcs, hfs]
    unfold kunlink
    cases hdp : deny (tmpfilePrefix ++ sixDigits k) with
    | some e =>
      have : e ≠ 0 := fun h => hd _ (h ▸ hdp)
      simp [this]
    | none =>
      simp only
      split
      · rename_i hany
        refine ⟨_, rfl, ?_⟩
        intro a haa
        simp at haa
        refine ⟨by rw [← haa, ha], k, hk, hfree, ?_, ?_⟩
        · rintro ⟨pm, hpm⟩
          simp at hpm
        · intro f hf
          simp [List.mem_filter]
          intro _
          exact fun h => hf (by simpa using h)
      · simp
  · rw [if_pos he]
    exact ⟨_, rfl, by simp⟩
  · rw [if_pos (by simp [he])]
    exact ⟨_, rfl, by simp⟩

/-- **C118 is violated.** If no file can be created `tmpfile` fails without an error number: errno stays what it was. -/
theorem tmpfile_errno_violated :
    tmpfile ⟨fun _ fs => fs, fun _ _ => some 13⟩ id (fun _ => none) [] 0 = .ok ⟨none, [], 0⟩ := by
  have h := mkostemps_creates ⟨fun _ fs => fs, fun _ _ => some 13⟩ (by simp) [] (tmpfilePrefix ++ [88, 88, 88, 88, 88, 88] ++ [])
    tmpfilePrefix [] [] 0 ⟨rfl, rfl⟩ (by decide) (by decide) 0
  obtain ⟨o, ho, hc⟩ := h
  rw [List.append_nil] at ho
  have hfs : ∀ k, World.before ⟨fun _ fs => fs, fun _ _ => some 13⟩ [] k = [] := by
    intro k; induction k with
    | zero => rfl
    | succ k ih => simpa [World.before] using ih
  unfold tmpfile
  rw [ho, bok]
  rcases hc with ⟨k, hk, he, ha, hno, hm, hfree, hf⟩ | ⟨k, hk, he, -, hf⟩ | ⟨he, hf, hall⟩
  · -- the kernel refused, so this is not what happened
    simp at hno
  · rw [if_pos he, hf, hfs]
  · exfalso
    rcases hall 0 (by decide) with h | h
    · rw [hfs] at h
      obtain ⟨_, h⟩ := h
      simp at h
    · simp at h

/-- An upper-case hexadecimal digit of `%X`. -/
def hexDigit (d : Nat) : Nat := if d < 10 then 48 + d else 55 + d

/-- The digits of `%X`. -/
def hexDigits (n : Nat) : List Nat := if n < 16 then [hexDigit n] else hexDigits (n / 16) ++ [hexDigit (n % 16)]

/-- `%06X` -/
def fmt06X (n : Nat) : List Nat := List.replicate (6 - (hexDigits n).length) 48 ++ hexDigits n

/-- "/tmp/tmpnam_" -/
def tmpnamPrefix : List Nat := [47, 116, 109, 112, 47, 116, 109, 112, 110, 97, 109, 95]

/-- stdio.cpp L806-824, from attempt `i` on with `left` left; `rand` is the sequence of numbers `rand` gives.  The name is
    shorter than the 256 bytes of the buffer.  Opening for reading (flags 0) creates nothing. -/
def tmpnamLoop (w : World) (rand : Nat → Nat) : Nat → Nat → Files → Option (Nat × List Nat)
  | 0, _, _ => none                                                               -- L823
  | left + 1, i, fs =>
    let name := tmpnamPrefix ++ fmt06X (rand i % 2 ^ 24)                          -- L810
    if name.length < 18 then none                                                 -- L811-812
    else
      let r := kopen (w.deny i) (w.env i fs) name 0 0o666                         -- L815
      if r.2.1 = 0 then tmpnamLoop w rand left (i + 1) r.1                        -- L816-818
      else some (i, name)                                                         -- L819

def tmpnam (w : World) (rand : Nat → Nat) (fs : Files) : Option (Nat × List Nat) := tmpnamLoop w rand 100 0 fs

theorem hexDigits_len (n : Nat) : ∀ w, n < 16 ^ (w + 1) → (hexDigits n).length ≤ w + 1 ∧ 1 ≤ (hexDigits n).length := by
  induction n using hexDigits.induct with
  | case1 n h => intro w _; unfold hexDigits; simp [h]
  | case2 n h ih =>
    intro w hw
    cases w with
    | zero => simp at hw; omega
    | succ w =>
      have h2 : n / 16 < 16 ^ (w + 1) := by
        rw [Nat.pow_succ] at hw
        omega
      have := ih w h2
      unfold hexDigits
      rw [if_neg h]
      simp; omega

theorem hexDigits_ok (n : Nat) : ∀ c ∈ hexDigits n, (48 ≤ c ∧ c ≤ 57) ∨ (65 ≤ c ∧ c ≤ 70) := by
  have hd : ∀ d, d < 16 → (48 ≤ hexDigit d ∧ hexDigit d ≤ 57) ∨ (65 ≤ hexDigit d ∧ hexDigit d ≤ 70) := by
    intro d hd; unfold hexDigit; split <;> omega
  induction n using hexDigits.induct with
  | case1 n h => unfold hexDigits; simp [h]; exact hd n h
  | case2 n h ih =>
    unfold hexDigits
    rw [if_neg h]
    intro c hc
    rw [List.mem_append] at hc
    rcases hc with hc | hc
    · exact ih c hc
    · simp at hc; subst hc; exact hd _ (by omega)

theorem fmt06X_ok (n : Nat) (h : n < 2 ^ 24) : (fmt06X n).length = 6 ∧
    ∀ c ∈ fmt06X n, (48 ≤ c ∧ c ≤ 57) ∨ (65 ≤ c ∧ c ≤ 70) := by
  have := hexDigits_len n 5 (by omega)
  constructor
  · simp [fmt06X]; omega
  · intro c hc
    simp only [fmt06X, List.mem_append, List.mem_replicate] at hc
    rcases hc with hc | hc
    · omega
    · exact hexDigits_ok n c hc

theorem kopen_rd (deny : List Nat → Option Nat) (fs : Files) (p : List Nat) (mode : Nat) :
    (kopen deny fs p 0 mode).1 = fs ∧ (deny p = none → fs.has p → (kopen deny fs p 0 mode).2.1 = 0) := by
  unfold kopen
  cases deny p with
  | some e => simp
  | none =>
    constructor
    · simp only
      split
      · simp
      · simp
    · intro _ h
      simp only
      rw [if_pos ((any_iff _ _).2 h)]
      simp

theorem tmpnamLoop_spec (w : World) (rand : Nat → Nat) (fs : Files) : ∀ left i k name,
    tmpnamLoop w rand left i (w.upto fs i) = some (k, name) →
    (∃ x, name = tmpnamPrefix ++ x ∧ x.length = 6 ∧ ∀ c ∈ x, (48 ≤ c ∧ c ≤ 57) ∨ (65 ≤ c ∧ c ≤ 70)) ∧
      (w.deny k name = none → ¬ (w.before fs k).has name) := by
  intro left
  induction left with
  | zero => intro i k name h; simp [tmpnamLoop] at h
  | succ left ih =>
    intro i k name h
    simp only [tmpnamLoop] at h
    have hf := fmt06X_ok (rand i % 2 ^ 24) (by omega)
    rw [if_neg (by simp [hf.1, tmpnamPrefix])] at h
    obtain ⟨hk1, hk2⟩ := kopen_rd (w.deny i) (w.env i (w.upto fs i)) (tmpnamPrefix ++ fmt06X (rand i % 2 ^ 24)) 0o666
    split at h
    · rw [hk1, ← before_upto] at h
      exact ih (i + 1) k name h
    · rename_i hne
      injection h with h
      injection h with ha hb
      subst ha hb
      refine ⟨⟨_, rfl, hf.1, hf.2⟩, ?_⟩
      intro hd hh
      rw [before_upto] at hh
      exact hne (hk2 hd hh)

/-- **C118, part.** A name `tmpnam` returns is "/tmp/tmpnam_" with six hexadecimal digits, and, if the kernel had no reason to
    refuse to open it, was the name of no file at the time of the last attempt.  Missing: see `tmpnam_violated`. -/
theorem tmpnam_partial (w : World) (rand : Nat → Nat) (fs : Files) (k : Nat) (name : List Nat)
    (h : tmpnam w rand fs = some (k, name)) :
    (∃ x, name = tmpnamPrefix ++ x ∧ x.length = 6 ∧ ∀ c ∈ x, (48 ≤ c ∧ c ≤ 57) ∨ (65 ≤ c ∧ c ≤ 70)) ∧
      (w.deny k name = none → ¬ (w.before fs k).has name) :=
  tmpnamLoop_spec w rand fs 100 0 k name h

/-- **C118 is violated.** `tmpnam` returns the name of a file that exists, if the caller may not read it. -/
theorem tmpnam_violated : ∃ (w : World) (fs : Files) (k : Nat) (name : List Nat),
    tmpnam w (fun _ => 171) fs = some (k, name) ∧ (w.before fs k).has name := by
  refine ⟨⟨fun _ fs => fs, fun _ _ => some 13⟩, [(tmpnamPrefix ++ [48, 48, 48, 48, 65, 66], 0)], 0,
    tmpnamPrefix ++ [48, 48, 48, 48, 65, 66], ?_, ⟨0, by simp [World.before]⟩⟩
  simp [tmpnam, tmpnamLoop, tmpnamPrefix, fmt06X, hexDigits, hexDigit, kopen]

/-! ## Examples -/

/-- A system where nobody else does anything and nothing is refused. -/
def quiet : World := ⟨fun _ fs => fs, fun _ _ => none⟩

/-- A template with a suffix: "/t/aXXXXXX.c". -/
example : Template [47, 116, 47, 97, 88, 88, 88, 88, 88, 88, 46, 99] 2 [47, 116, 47, 97] [46, 99] := ⟨rfl, rfl⟩

example : (∀ i p, quiet.deny i p ≠ some 0) ∧ 0 ∉ [47, 116, 47, 97, 88, 88, 88, 88, 88, 88, 46, 99] := by simp [quiet]

/-- The first name is taken, so the second is created; O_WRONLY in the flags changes nothing. -/
example : mkostemps quiet [([97, 48, 48, 48, 48, 48, 48, 46, 99], 0)] [97, 88, 88, 88, 88, 88, 88, 46, 99, 0, 7] 2 1 =
    .ok ⟨[97, 48, 48, 48, 48, 48, 49, 46, 99, 0, 7],
      [([97, 48, 48, 48, 48, 48, 49, 46, 99], 0o600), ([97, 48, 48, 48, 48, 48, 48, 46, 99], 0)], 0, 2⟩ := by
  decide +kernel

/-- A suffix length that does not fit: not a template. -/
example : ¬ ∃ pre suf, Template [97, 88, 88, 88, 88, 88, 88, 46, 99] 1 pre suf := by
  rintro ⟨pre, suf, h, hl⟩
  have h1 : suf.length = 1 := by omega
  match suf, h1 with
  | [c], _ =>
    have h2 := congrArg List.length h
    simp at h2
    match pre, h2 with
    | [a, b], _ => simp at h

example : ¬ ∃ pre, Template [97, 88, 88, 88, 88, 88, 46] 0 pre [] := by
  rintro ⟨pre, h, -⟩
  have h2 := congrArg List.length h
  simp at h2
  match pre, h2 with
  | [a], _ => simp at h

/-- Two callers with the same template. -/
def two : Sys := ⟨[], fun _ => ⟨[97, 88, 88, 88, 88, 88, 88, 0], 7, 0, 0, 0, none⟩⟩

example : ∀ k, (two.callers k).Start := fun _ =>
  ⟨[97], [], [], by decide, by decide, rfl, rfl, rfl, rfl, rfl⟩

/-- The first succeeds with its first name. -/
example : ∃ s, Reach two s ∧ (s.callers 0).name = some [97, 48, 48, 48, 48, 48, 48] :=
  ⟨_, .step .init (.attempt two 0 (fun _ => none) ([97, 48, 48, 48, 48, 48, 48, 0], [([97, 48, 48, 48, 48, 48, 48], 0o600)], 0, 2)
    (by simp) rfl (by decide)
    (by decide +kernel)),
   by simp [Caller.after, cstr]⟩

end Mlibc.Temp
