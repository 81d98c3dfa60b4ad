import Verif.Base
import Verif.Stdio.Scanf
import Verif.Str.Search

/-
The mount table: getmntent, getmntent_r, addmntent, hasmntopt (options/linux/generic/mntent.cpp). A file is its bytes; reading a
line and scanning it are the models of getline and fgets (as the bytes up to the newline) and of sscanf (C65). Property C82.
-/
namespace Mlibc.Mntent
open Mlibc Mlibc.Scanf Mlibc.Scanf.Spec

/-- `struct mntent` (options/linux/include/mntent.h) -/
structure Mnt where
  fsname : List Nat
  dir : List Nat
  type : List Nat
  opts : List Nat
  freq : Int
  passno : Int
  deriving DecidableEq, Repr

/-! ## The code -/

/-- `" %n%*s%n %n%*s%n %n%*s%n %n%*s%n %d %d"`, mntent.cpp L82 -/
def fmt : List Nat :=
  [32, 37, 110, 37, 42, 115, 37, 110, 32, 37, 110, 37, 42, 115, 37, 110, 32, 37, 110, 37, 42, 115, 37, 110,
   32, 37, 110, 37, 42, 115, 37, 110, 32, 37, 100, 32, 37, 100]

/-- `"%*[^\n]%*[\n]"`, mntent.cpp L68 -/
def skipFmt : List Nat := [37, 42, 91, 94, 10, 93, 37, 42, 91, 10, 93]

/-- What sscanf stored through its pointer number `i` (L82-84), or the value that was there. -/
def stored (st : List Store) (i dflt : Nat) : Nat :=
  match st[i]? with
  | some (.int _ b) => b
  | _ => dflt

/-- An `int` from its 32 bits. -/
def toInt (b : Nat) : Int := if b < 2 ^ 31 then b else (b : Int) - 2 ^ 32

/-- `mnt_freq` and `mnt_passno` keep their value if sscanf does not come to them (L83-84). -/
def storedInt (st : List Store) (i : Nat) (dflt : Int) : Int :=
  match st[i]? with
  | some (.int _ b) => toInt b
  | _ => dflt

/-- The string at offset `i` of the line buffer. -/
def cstr (buf : List Nat) (i : Nat) : List Nat := (buf.drop i).takeWhile (· != 0)

/-- What one pass of the loop and the statements after it (mntent.cpp L73-97) do with a line: `none`, the loop goes on, with the numbers it
stored; otherwise the entry. The positions are indices into `line` followed by a zero byte. -/
def parse (line : List Nat) (freq passno : Int) : Res (Except (Int × Int) Mnt) :=
  (scanf cSpace fmt line).bind fun r =>
    let len := line.length
    let n := fun i => stored r.stores i len
    let freq := storedInt r.stores 8 freq
    let passno := storedInt r.stores 9 passno
    let buf := line ++ [0]
    if buf[n 0]? = some 35 ∨ n 1 = len then .ok (.error (freq, passno))
    else
      let buf := (((buf.set (n 1) 0).set (n 3) 0).set (n 5) 0).set (n 7) 0
      .ok (.ok ⟨cstr buf (n 0), cstr buf (n 2), cstr buf (n 4), cstr buf (n 6), freq, passno⟩)

/-- getline (L59), or fgets with `buflen` bytes (L62): the bytes read, and the rest of the file; `none`: the end of the file was
reached (L64). -/
def readLine (buflen : Option Nat) (file : List Nat) : Option (List Nat × List Nat) :=
  let line := file.takeWhile (· != 10)
  match buflen with
  | none => if line.length < file.length then some (line ++ [10], file.drop (line.length + 1)) else none
  | some b =>
    if line.length + 1 < b then
      if line.length < file.length then some (line ++ [10], file.drop (line.length + 1)) else none
    else if b - 1 ≤ file.length then some (file.take (b - 1), file.drop (b - 1)) else none

/-- mntent.cpp L57-98 `getmntent_r` after L55, with the numbers found in `mnt`. The result and the rest of the file; `none` is NULL.
The first argument bounds the iterations (exceeding it: `ub`). -/
def getLoop (buflen : Option Nat) : Nat → List Nat → Int → Int → Res (Option Mnt × List Nat)
  | 0, _, _, _ => .ub
  | fuel + 1, file, freq, passno =>
    match readLine buflen file with
    | none => .ok (none, [])
    | some (line, rest) =>
      if 10 ∉ line then
        (scanf cSpace skipFmt rest).bind fun r => .ok (none, r.left.rest)
      else
        (parse line freq passno).bind fun
          | .error (freq, passno) => getLoop buflen fuel rest freq passno
          | .ok m => .ok (some m, rest)

/-- mntent.cpp L22-25 `getmntent` (`buflen` is none) and L48-98 `getmntent_r`. -/
def getmntent (buflen : Option Nat) (file : List Nat) : Res (Option Mnt × List Nat) :=
  getLoop buflen (file.length + 1) file 0 0

/-- `%d` of an int. -/
def intText (i : Int) : List Nat :=
  if i < 0 then 45 :: Strtol.decimal i.natAbs else Strtol.decimal i.natAbs

/-- mntent.cpp L27-34 `addmntent`: the bytes that are appended to the file. -/
def addText (m : Mnt) : List Nat :=
  m.fsname ++ 9 :: (m.dir ++ 9 :: (m.type ++ 9 :: (m.opts ++ 9 :: (intText m.freq ++ 9 :: (intText m.passno ++ [10])))))

/-- mntent.cpp L43-45 `hasmntopt`: the position in `mnt_opts`. -/
def hasmntopt (m : Mnt) (opt : List Nat) : Res (Option Nat) := Str.strstr (m.opts ++ [0]) (opt ++ [0])

/-! ## Specification -/

/-- White space: space, \t, \n, \v, \f, \r. -/
def white (c : Nat) : Bool := c == 32 || c == 9 || c == 10 || c == 11 || c == 12 || c == 13

/-- Splitting at white space; there can be empty pieces. -/
def pieces : List Nat → List (List Nat)
  | [] => [[]]
  | c :: s => if white c then [] :: pieces s else
    match pieces s with
    | [] => [[c]]
    | w :: r => (c :: w) :: r

/-- The words of a line. -/
def words (line : List Nat) : List (List Nat) := (pieces line).filter (· ≠ [])

/-- The word number `i`, empty if there is none. -/
def word (line : List Nat) (i : Nat) : List Nat := (words line)[i]?.getD []

/-- The line is no entry: it is blank, or its first word begins with #. -/
def Skipped (line : List Nat) : Prop := words line = [] ∨ (word line 0).head? = some 35

/-- A text of ASCII characters. -/
def Ascii (s : List Nat) : Prop := ∀ c ∈ s, 0 < c ∧ c < 128

/-! ## Proofs -/

theorem white_eq (c : Nat) : white c = cSpace c := by
  rw [Bool.eq_iff_iff]
  simp only [white, cSpace, Bool.or_eq_true, Bool.and_eq_true, beq_iff_eq, decide_eq_true_eq]
  omega

theorem pieces_ne (s : List Nat) : pieces s ≠ [] := by
  cases s with
  | nil => simp [pieces]
  | cons c s =>
    rw [pieces]
    split
    · simp
    · split <;> simp

theorem words_white (c : Nat) (s : List Nat) (h : white c = true) : words (c :: s) = words s := by
  simp [words, pieces, h]

theorem words_dropWhile (s : List Nat) : words (s.dropWhile white) = words s := by
  induction s with
  | nil => rfl
  | cons c s ih =>
    by_cases h : white c = true
    · rw [List.dropWhile_cons_of_pos h, ih, words_white c s h]
    · rw [List.dropWhile_cons_of_neg h]

theorem pieces_word (w r : List Nat) (hw : ∀ c ∈ w, white c = false) (hr : ∀ c, r.head? = some c → white c = true) :
    pieces (w ++ r) = w :: (pieces r).tail := by
  induction w with
  | nil =>
    cases r with
    | nil => rfl
    | cons c r => simp [pieces, hr c rfl]
  | cons c w ih =>
    have ih := ih (fun x hx => hw x (by simp [hx]))
    rw [List.cons_append, pieces, if_neg (by simp [hw c (by simp)]), ih]

theorem words_word (w r : List Nat) (hne : w ≠ []) (hw : ∀ c ∈ w, white c = false) (hr : ∀ c, r.head? = some c → white c = true) :
    words (w ++ r) = w :: words r := by
  have ht : (pieces r).tail.filter (· ≠ []) = words r := by
    unfold words
    cases r with
    | nil => simp [pieces]
    | cons c r => simp [pieces, hr c rfl]
  unfold words
  rw [pieces_word w r hw hr, List.filter_cons, if_pos (by simpa using hne), ht]
  rfl

theorem takeWhile_all {α : Type} (p : α → Bool) (s : List α) : ∀ c ∈ s.takeWhile p, p c = true := by
  induction s with
  | nil => simp
  | cons a s ih =>
    by_cases h : p a
    · rw [List.takeWhile_cons_of_pos h]
      intro c hc
      rcases List.mem_cons.1 hc with rfl | hc
      · exact h
      · exact ih c hc
    · rw [List.takeWhile_cons_of_neg h]; simp

theorem head_dropWhile' {α : Type} (p : α → Bool) (s : List α) (c : α) (h : (s.dropWhile p).head? = some c) : p c = false := by
  induction s with
  | nil => simp at h
  | cons a s ih =>
    by_cases hp : p a
    · rw [List.dropWhile_cons_of_pos hp] at h; exact ih h
    · rw [List.dropWhile_cons_of_neg hp] at h; simp at h; subst h; simpa using hp

/-- The first word after white space and what follows it. -/
theorem split_word (s : List Nat) :
    (s.dropWhile white = [] ∧ words s = []) ∨
    ∃ w r, s.dropWhile white = w ++ r ∧ w ≠ [] ∧ (∀ c ∈ w, white c = false) ∧ (∀ c, r.head? = some c → white c = true) ∧
      words s = w :: words r ∧ (s.dropWhile white).takeWhile (fun c => !white c) = w := by
  by_cases hs : s.dropWhile white = []
  · left
    refine ⟨hs, ?_⟩
    rw [← words_dropWhile, hs]; rfl
  · right
    have hd : s.dropWhile white = (s.dropWhile white).takeWhile (fun c => !white c) ++ (s.dropWhile white).dropWhile (fun c => !white c) :=
      (List.takeWhile_append_dropWhile).symm
    have hw : ∀ c ∈ (s.dropWhile white).takeWhile (fun c => !white c), white c = false := by
      intro c hc
      simpa using takeWhile_all _ _ c hc
    have hr : ∀ c, ((s.dropWhile white).dropWhile (fun c => !white c)).head? = some c → white c = true := by
      intro c hc
      simpa using head_dropWhile' _ _ c hc
    have hne : (s.dropWhile white).takeWhile (fun c => !white c) ≠ [] := by
      cases hq : s.dropWhile white with
      | nil => exact absurd hq hs
      | cons c q =>
        have := head_dropWhile' white s c (by rw [hq]; rfl)
        rw [List.takeWhile_cons_of_pos (by simp [this])]
        simp
    refine ⟨_, _, hd, hne, hw, hr, ?_, rfl⟩
    rw [← words_dropWhile s]
    conv => lhs; rw [hd]
    exact words_word _ _ hne hw hr

/-- The directives of one field. -/
def block : List Dir := [.space 32, .count .int, .str true 0, .count .int]

/-- The directives of `fmt`. -/
def dirs : List Dir := block ++ (block ++ (block ++ (block ++ [.space 32, .int false 0 .int .d, .space 32, .int false 0 .int .d])))

theorem dirs_text : format dirs = fmt := by decide

theorem white_fun : white = cSpace := funext white_eq

theorem run_block_none (total : Nat) (ds : List Dir) (s : List Nat) (n : Nat) (st : List Store) (h : s.dropWhile cSpace = [])
    (ht : total < 2 ^ 31) :
    (run cSpace total (block ++ ds) s n st).stores = st ++ [.int 32 total] := by
  have hm : total % 2 ^ 32 = total := Nat.mod_eq_of_lt (by omega)
  simp [block, run, str, h, Ty.bits, hm]

theorem run_block_some (total : Nat) (ds : List Dir) (s w r : List Nat) (n : Nat) (st : List Store) (h : s.dropWhile cSpace = w ++ r)
    (hne : w ≠ []) (hw : (w ++ r).takeWhile (fun c => !cSpace c) = w) (ht : total < 2 ^ 31) (hl : w.length + r.length ≤ total) :
    run cSpace total (block ++ ds) s n st
      = run cSpace total ds r n (st ++ [.int 32 (total - (w.length + r.length)), .int 32 (total - r.length)]) := by
  have hne' : ¬ (w ++ r = []) := by simp [hne]
  have hid : (w ++ r).dropWhile cSpace = w ++ r := by rw [← h, dropWhile_idem]
  have m1 : (total - (w.length + r.length)) % 2 ^ 32 = total - (w.length + r.length) := Nat.mod_eq_of_lt (by omega)
  have m2 : (total - r.length) % 2 ^ 32 = total - r.length := Nat.mod_eq_of_lt (by omega)
  simp only [block, List.cons_append, List.nil_append, run, h, str, hid]
  rw [if_neg hne']
  simp only [if_true, hw, List.drop_left, Ty.bits, List.length_append, m1, m2, List.append_assoc, List.cons_append,
    List.nil_append]

/-- The places where the four fields begin and end, as `n` has them; a missing field is at the end of the line. -/
structure Places (line : List Nat) (st : List Store) : Prop where
  fields : ∀ i < 4, stored st (2 * i) line.length ≤ stored st (2 * i + 1) line.length ∧
    stored st (2 * i + 1) line.length ≤ line.length ∧
    stored st (2 * i + 1) line.length - stored st (2 * i) line.length = (word line i).length ∧
    (line.drop (stored st (2 * i) line.length)).take (word line i).length = word line i
  missing : ∀ i < 4, word line i = [] → stored st (2 * i + 1) line.length = line.length
  order : ∀ i < 3, stored st (2 * i + 1) line.length ≤ stored st (2 * i + 2) line.length ∧
    (word line (i + 1) ≠ [] → stored st (2 * i + 1) line.length < stored st (2 * i + 2) line.length)

theorem int_stores (total : Nat) (s : List Nat) (n : Nat) (st : List Store) :
    ∃ t, (run cSpace total [.space 32, .int false 0 .int .d, .space 32, .int false 0 .int .d] s n st).stores = st ++ t := by
  simp only [run]
  cases int cSpace 0 .int .d (s.dropWhile cSpace) with
  | inputFailure => exact ⟨[], by simp⟩
  | matchFailure r => exact ⟨[], by simp⟩
  | done x r =>
    simp only [Bool.false_eq_true, if_false]
    cases int cSpace 0 .int .d (r.dropWhile cSpace) with
    | inputFailure => exact ⟨[x], rfl⟩
    | matchFailure r => exact ⟨[x], rfl⟩
    | done y r => exact ⟨[x, y], by simp [run]⟩

/-- Positions reached: `k` fields read so far, `r` is left. -/
structure Pre (line : List Nat) (k : Nat) (r : List Nat) (st : List Store) : Prop where
  len : st.length = 2 * k
  suff : line.drop (line.length - r.length) = r
  le : r.length ≤ line.length
  rest : (words line).drop k = words r
  sep : 0 < k → ∀ c, r.head? = some c → white c = true
  fields : ∀ i < k, ∃ a b : Nat, st[2 * i]? = some (.int 32 a) ∧ st[2 * i + 1]? = some (.int 32 b) ∧ a ≤ b ∧ b ≤ line.length - r.length ∧
    b - a = (word line i).length ∧ (line.drop a).take (word line i).length = word line i ∧
    (∀ a', st[2 * i + 2]? = some (.int 32 a') → b < a') ∧ word line i ≠ []

theorem dropWhile_suffix (p : Nat → Bool) (s : List Nat) : s.drop (s.length - (s.dropWhile p).length) = s.dropWhile p ∧
    (s.dropWhile p).length ≤ s.length := by
  have h : s = s.takeWhile p ++ s.dropWhile p := (List.takeWhile_append_dropWhile).symm
  have hl := congrArg List.length h
  rw [List.length_append] at hl
  refine ⟨?_, by omega⟩
  rw [show s.length - (s.dropWhile p).length = (s.takeWhile p).length by omega]
  conv => lhs; rw [h]
  rw [List.takeWhile_append_dropWhile]
  have : (s.takeWhile p ++ s.dropWhile p).drop (s.takeWhile p).length = s.dropWhile p := List.drop_left
  rwa [List.takeWhile_append_dropWhile] at this

theorem Pre.next {line r : List Nat} {k : Nat} {st : List Store} (h : Pre line k r st) {w q : List Nat}
    (hd : r.dropWhile white = w ++ q) (hne : w ≠ []) (hq : ∀ c, q.head? = some c → white c = true) (hw : words r = w :: words q) :
    Pre line (k + 1) q (st ++ [.int 32 (line.length - (w.length + q.length)), .int 32 (line.length - q.length)]) := by
  obtain ⟨h1, h2⟩ := dropWhile_suffix white r
  rw [hd] at h1 h2
  rw [List.length_append] at h1 h2
  have hle := h.le
  have hsuf : line.drop (line.length - (w.length + q.length)) = w ++ q := by
    rw [← h1]
    conv => rhs; rw [← h.suff]
    rw [List.drop_drop]
    congr 1
    have := congrArg List.length h.suff
    rw [List.length_drop] at this
    have hr := congrArg List.length h1
    rw [h.suff]
    omega
  have hwk : word line k = w := by
    have := h.rest
    rw [hw] at this
    unfold word
    have h3 := congrArg (fun l => l[0]?) this
    simp only [List.getElem?_drop, Nat.add_zero, List.getElem?_cons_zero] at h3
    rw [h3]; rfl
  have hstrict : 0 < k → w.length + q.length < r.length := by
    intro hk
    have hs := h.sep hk
    cases r with
    | nil => simp at hd; exact absurd hd.1 hne
    | cons c r =>
      rw [List.dropWhile_cons_of_pos (hs c rfl)] at hd
      have := (dropWhile_suffix white r).2
      rw [hd, List.length_append] at this
      simp; omega
  refine ⟨by simp [h.len]; omega, ?_, by omega, ?_, fun _ => hq, ?_⟩
  · rw [show line.length - q.length = (line.length - (w.length + q.length)) + w.length by omega, ← List.drop_drop, hsuf, List.drop_left]
  · have := congrArg (List.drop 1) h.rest
    rw [List.drop_drop, hw] at this
    exact this
  · intro i hi
    rcases Nat.lt_or_ge i k with hik | hik
    · obtain ⟨a, b, q1, q2, q3, q4, q5, q6, q7, q8⟩ := h.fields i hik
      have hl := h.len
      refine ⟨a, b, ?_, ?_, q3, by omega, q5, q6, ?_, q8⟩
      · rw [List.getElem?_append_left (by omega)]; exact q1
      · rw [List.getElem?_append_left (by omega)]; exact q2
      · intro a' ha'
        rcases Nat.lt_or_ge (2 * i + 2) st.length with hx | hx
        · rw [List.getElem?_append_left hx] at ha'; exact q7 a' ha'
        · rw [List.getElem?_append_right hx, show 2 * i + 2 - st.length = 0 by omega] at ha'
          simp at ha'
          have := hstrict (by omega)
          omega
    · have : i = k := by omega
      subst this
      have hl := h.len
      refine ⟨line.length - (w.length + q.length), line.length - q.length, ?_, ?_, by omega, by omega, by rw [hwk]; omega, ?_, ?_, by rw [hwk]; exact hne⟩
      · rw [List.getElem?_append_right (by omega), show 2 * i - st.length = 0 by omega]; rfl
      · rw [List.getElem?_append_right (by omega), show 2 * i + 1 - st.length = 1 by omega]; rfl
      · rw [hsuf, hwk, List.take_left]
      · intro a' ha'
        rw [List.getElem?_eq_none (by simp; omega)] at ha'
        cases ha'

/-- With the stores of `k` fields, and either more stores that do not count or the position of the end of the line, the places
are right. -/
theorem Pre.places {line r : List Nat} {k : Nat} {st : List Store} (h : Pre line k r st) (hk : k ≤ 4) (t : List Store)
    (ht : k = 4 ∨ (t = [.int 32 line.length] ∧ words r = [])) : Places line (st ++ t) := by
  have hl := h.len
  have get : ∀ i < k, ∃ a b, stored (st ++ t) (2 * i) line.length = a ∧ stored (st ++ t) (2 * i + 1) line.length = b ∧ a ≤ b ∧
      b ≤ line.length ∧ b - a = (word line i).length ∧ (line.drop a).take (word line i).length = word line i ∧
      (i + 1 < k → b < stored (st ++ t) (2 * i + 2) line.length) := by
    intro i hi
    obtain ⟨a, b, q1, q2, q3, q4, q5, q6, q7, q8⟩ := h.fields i hi
    refine ⟨a, b, ?_, ?_, q3, by omega, q5, q6, ?_⟩
    · unfold stored; rw [List.getElem?_append_left (by omega), q1]
    · unfold stored; rw [List.getElem?_append_left (by omega), q2]
    · intro hlt
      obtain ⟨a', b', r1, _⟩ := h.fields (i + 1) hlt
      rw [show 2 * (i + 1) = 2 * i + 2 by omega] at r1
      unfold stored
      rw [List.getElem?_append_left (by omega), r1]
      exact q7 a' r1
  have missing : ∀ j, k ≠ 4 → 2 * k ≤ j → stored (st ++ t) j line.length = line.length := by
    intro j h4 hj
    obtain ⟨rfl, _⟩ := ht.resolve_left h4
    unfold stored
    rw [List.getElem?_append_right (by omega)]
    rcases Nat.eq_or_lt_of_le hj with he | hlt
    · rw [show j - st.length = 0 by omega]; rfl
    · rw [List.getElem?_eq_none (by simp; omega)]
  have nowords : k ≠ 4 → ∀ i, k ≤ i → word line i = [] := by
    intro h4 i hi
    have hr := h.rest
    rw [(ht.resolve_left h4).2] at hr
    have := congrArg List.length hr
    rw [List.length_drop] at this
    unfold word
    rw [List.getElem?_eq_none (by simp at this; omega)]
    rfl
  constructor
  · intro i hi
    rcases Nat.lt_or_ge i k with hik | hik
    · obtain ⟨a, b, r1, r2, r3, r4, r5, r6, _⟩ := get i hik
      rw [r1, r2]
      exact ⟨r3, r4, r5, r6⟩
    · have h4 : k ≠ 4 := by omega
      rw [missing _ h4 (by omega), missing _ h4 (by omega), nowords h4 i hik]
      exact ⟨Nat.le_refl _, Nat.le_refl _, by simp, by simp⟩
  · intro i hi he
    rcases Nat.lt_or_ge i k with hik | hik
    · obtain ⟨a, b, _, _, _, _, _, _, _, q8⟩ := h.fields i hik
      exact absurd he q8
    · exact missing _ (by omega) (by omega)
  · intro i hi
    rcases Nat.lt_or_ge i k with hik | hik
    · obtain ⟨a, b, r1, r2, r3, r4, r5, r6, r7⟩ := get i hik
      rw [r2]
      rcases Nat.lt_or_ge (i + 1) k with hlt | hge
      · exact ⟨by have := r7 hlt; omega, fun _ => r7 hlt⟩
      · rw [missing _ (by omega) (by omega)]
        exact ⟨r4, fun hw => absurd (nowords (by omega) _ hge) hw⟩
    · have h4 : k ≠ 4 := by omega
      rw [missing _ h4 (by omega), missing _ h4 (by omega)]
      exact ⟨Nat.le_refl _, fun hw => absurd (nowords h4 _ (by omega)) hw⟩

theorem pre_start (line : List Nat) : Pre line 0 line [] :=
  ⟨rfl, by simp, Nat.le_refl _, by simp, fun h => by omega, fun i hi => by omega⟩

/-- One block from a reached position: it ends here, or goes on. -/
theorem Pre.block {line r : List Nat} {k : Nat} {st : List Store} (h : Pre line k r st) (hk : k < 4) (hlen : line.length < 2 ^ 31)
    (ds : List Dir) :
    Places line (run cSpace line.length (block ++ ds) r 0 st).stores ∨
    ∃ q st', run cSpace line.length (Mntent.block ++ ds) r 0 st = run cSpace line.length ds q 0 st' ∧ Pre line (k + 1) q st' := by
  rcases split_word r with ⟨h1, h2⟩ | ⟨w, q, h1, h2, h3, h4, h5, h6⟩
  · left
    rw [run_block_none _ _ _ _ _ (by rw [← white_fun]; exact h1) hlen]
    exact h.places (by omega) _ (.inr ⟨rfl, h2⟩)
  · right
    refine ⟨q, _, run_block_some _ _ _ w q _ _ (by rw [← white_fun]; exact h1) h2 ?_ hlen ?_, h.next h1 h2 h4 h5⟩
    · rw [← white_fun, ← h1]; exact h6
    · have := (dropWhile_suffix white r).2
      rw [h1, List.length_append] at this
      have := h.le
      omega

theorem places_scan (line : List Nat) (hlen : line.length < 2 ^ 31) : Places line (scan cSpace dirs line).stores := by
  unfold scan dirs
  rcases (pre_start line).block (by omega) hlen (block ++ (block ++ (block ++
    [.space 32, .int false 0 .int .d, .space 32, .int false 0 .int .d]))) with h | ⟨q1, s1, e1, p1⟩
  · exact h
  rw [e1]
  rcases p1.block (by omega) hlen (block ++ (block ++
    [.space 32, .int false 0 .int .d, .space 32, .int false 0 .int .d])) with h | ⟨q2, s2, e2, p2⟩
  · exact h
  rw [e2]
  rcases p2.block (by omega) hlen (block ++ [.space 32, .int false 0 .int .d, .space 32, .int false 0 .int .d]) with h | ⟨q3, s3, e3, p3⟩
  · exact h
  rw [e3]
  rcases p3.block (by omega) hlen [.space 32, .int false 0 .int .d, .space 32, .int false 0 .int .d] with h | ⟨q4, s4, e4, p4⟩
  · exact h
  rw [e4]
  obtain ⟨t, ht⟩ := int_stores line.length q4 0 s4
  rw [ht]
  exact p4.places (by omega) t (.inl rfl)

theorem dirs_covered : ∀ d ∈ dirs, d.Covered cSpace := by
  intro d hd
  simp only [dirs, block, List.cons_append, List.nil_append, List.mem_cons, List.not_mem_nil, or_false] at hd
  rcases hd with rfl | rfl | rfl | rfl | rfl | rfl | rfl | rfl | rfl | rfl | rfl | rfl | rfl | rfl | rfl | rfl | rfl | rfl | rfl | rfl <;>
    first | rfl | trivial | exact .inl rfl

theorem dirs_ranged : ¬ ∃ d ∈ dirs, d.ranged := by
  rintro ⟨d, hd, hr⟩
  simp only [dirs, block, List.cons_append, List.nil_append, List.mem_cons, List.not_mem_nil, or_false] at hd
  rcases hd with rfl | rfl | rfl | rfl | rfl | rfl | rfl | rfl | rfl | rfl | rfl | rfl | rfl | rfl | rfl | rfl | rfl | rfl | rfl | rfl <;>
    exact hr

theorem scanf_line (line : List Nat) (ha : Ascii line) :
    ∃ r, scanf cSpace fmt line = .ok r ∧ r.stores = (scan cSpace dirs line).stores := by
  obtain ⟨r, h1, _, h2, _⟩ := scanf_partial (isSpace := cSpace) (by decide) dirs dirs_covered line (fun c hc => by have := (ha c hc).1; omega)
    (fun _ c hc => (ha c hc).2) (fun h => absurd h dirs_ranged)
  rw [dirs_text] at h1
  exact ⟨r, h1, h2⟩

theorem cstr_eq (buf w : List Nat) (n : Nat) (h0 : 0 ∉ w) (hw : ∀ i < w.length, buf[n + i]? = w[i]?) (hz : buf[n + w.length]? = some 0) :
    cstr buf n = w := by
  unfold cstr
  induction w generalizing n with
  | nil =>
    have hz : buf[n]? = some 0 := by simpa using hz
    obtain ⟨hn, he⟩ := List.getElem?_eq_some_iff.1 hz
    rw [List.drop_eq_getElem_cons hn, List.takeWhile_cons_of_neg (by simp [he])]
  | cons c w ih =>
    have h1 : buf[n]? = some c := by simpa using hw 0 (by simp)
    obtain ⟨hn, he⟩ := List.getElem?_eq_some_iff.1 h1
    have hc : c ≠ 0 := fun h => h0 (by simp [h])
    rw [List.drop_eq_getElem_cons hn, he, List.takeWhile_cons_of_pos (by simp [hc])]
    congr 1
    refine ih (n + 1) (fun h => h0 (by simp [h])) (fun i hi => ?_) ?_
    · have := hw (i + 1) (by simpa using hi)
      rw [show n + 1 + i = n + (i + 1) by omega, this]
      rfl
    · rw [show n + 1 + w.length = n + (c :: w).length by simp; omega]; exact hz

theorem set4_get (buf : List Nat) (a b c d i : Nat) : ((((buf.set a 0).set b 0).set c 0).set d 0)[i]? =
    if (i = a ∨ i = b ∨ i = c ∨ i = d) ∧ i < buf.length then some 0 else buf[i]? := by
  simp only [List.getElem?_set, List.length_set]
  by_cases hl : i < buf.length
  · simp only [hl, and_true]
    by_cases h1 : i = d
    · subst h1; simp [hl]
    · by_cases h2 : i = c
      · subst h2; simp [Ne.symm h1]; try (intros; omega)
      · by_cases h3 : i = b
        · subst h3; simp [Ne.symm h1, Ne.symm h2]; try (intros; omega)
        · by_cases h4 : i = a
          · subst h4; simp [Ne.symm h1, Ne.symm h2, Ne.symm h3]; try (intros; omega)
          · simp [h1, h2, h3, h4, Ne.symm h1, Ne.symm h2, Ne.symm h3, Ne.symm h4]
  · have hn : buf[i]? = none := List.getElem?_eq_none (by omega)
    simp only [hl, and_false, if_false, hn]
    repeat' split
    all_goals first | rfl | omega

theorem words_ne (line : List Nat) : ∀ w ∈ words line, w ≠ [] := by
  intro w hw
  simpa using (List.mem_filter.1 hw).2

theorem words_notwhite (line : List Nat) : ∀ w ∈ words line, ∀ c ∈ w, white c = false := by
  intro w hw
  have hp : w ∈ pieces line := (List.mem_filter.1 hw).1
  clear hw
  induction line generalizing w with
  | nil => simp [pieces] at hp; subst hp; simp
  | cons a s ih =>
    rw [pieces] at hp
    by_cases ha : white a = true
    · rw [if_pos ha] at hp
      rcases List.mem_cons.1 hp with rfl | hp
      · simp
      · exact ih w hp
    · rw [if_neg ha] at hp
      cases hq : pieces s with
      | nil => exact absurd hq (pieces_ne s)
      | cons v r =>
        rw [hq] at hp
        rcases List.mem_cons.1 hp with rfl | hp
        · intro c hc
          rcases List.mem_cons.1 hc with rfl | hc
          · simpa using ha
          · exact ih v (by rw [hq]; simp) c hc
        · exact ih w (by rw [hq]; simp [hp])

theorem word_notwhite (line : List Nat) (i : Nat) : ∀ c ∈ word line i, white c = false := by
  unfold word
  cases h : (words line)[i]? with
  | none => simp
  | some w => exact words_notwhite line w (List.mem_of_getElem? h)

theorem word_nil (line : List Nat) (i : Nat) (h : word line i = []) : (words line).length ≤ i := by
  rcases Nat.lt_or_ge i (words line).length with hi | hi
  · unfold word at h
    rw [List.getElem?_eq_getElem hi] at h
    exact absurd h (words_ne line _ (List.getElem_mem hi))
  · exact hi

/-- The numbers that sscanf leaves, given those before. -/
def numbers (line : List Nat) (freq passno : Int) : Int × Int :=
  (storedInt (scan cSpace dirs line).stores 8 freq, storedInt (scan cSpace dirs line).stores 9 passno)

open Classical in
theorem parse_ok (text : List Nat) (ha : Ascii text) (hlen : text.length < 2 ^ 31 - 1) (freq passno : Int) :
    parse (text ++ [10]) freq passno = .ok (
      if Skipped (text ++ [10]) then .error (numbers (text ++ [10]) freq passno)
      else .ok ⟨word (text ++ [10]) 0, word (text ++ [10]) 1, word (text ++ [10]) 2, word (text ++ [10]) 3,
        (numbers (text ++ [10]) freq passno).1, (numbers (text ++ [10]) freq passno).2⟩) := by
  have hal : Ascii (text ++ [10]) := by
    intro c hc
    rcases List.mem_append.1 hc with hc | hc
    · exact ha c hc
    · simp at hc; omega
  have hll : (text ++ [10]).length < 2 ^ 31 := by simp; omega
  have hlast : (text ++ [10])[(text ++ [10]).length - 1]? = some 10 := by simp
  generalize text ++ [10] = line at *
  obtain ⟨r, h1, h2⟩ := scanf_line line hal
  have P := places_scan line hll
  unfold parse
  rw [h1]
  simp only [Res.bind, h2, numbers]
  generalize (scan cSpace dirs line).stores = st at *
  have e0 := P.fields 0 (by omega)
  have e1 := P.fields 1 (by omega)
  have e2 := P.fields 2 (by omega)
  have e3 := P.fields 3 (by omega)
  have o0 := P.order 0 (by omega)
  have o1 := P.order 1 (by omega)
  have o2 := P.order 2 (by omega)
  have m0 := P.missing 0 (by omega)
  have m1 := P.missing 1 (by omega)
  have m2 := P.missing 2 (by omega)
  have m3 := P.missing 3 (by omega)
  simp only [Nat.mul_zero, Nat.zero_add, Nat.mul_one, Nat.reduceMul, Nat.reduceAdd] at e0 e1 e2 e3 o0 o1 o2 m0 m1 m2 m3
  generalize stored st 0 line.length = n0 at *
  generalize stored st 1 line.length = n1 at *
  generalize stored st 2 line.length = n2 at *
  generalize stored st 3 line.length = n3 at *
  generalize stored st 4 line.length = n4 at *
  generalize stored st 5 line.length = n5 at *
  generalize stored st 6 line.length = n6 at *
  generalize stored st 7 line.length = n7 at *
  have hget : ∀ (n : Nat) (w : List Nat), (line.drop n).take w.length = w → ∀ i < w.length, (line ++ [0])[n + i]? = w[i]? := by
    intro n w hw i hi
    have h3 : w[i]? = line[n + i]? := by
      conv => lhs; rw [← hw]
      rw [List.getElem?_take_of_lt hi, List.getElem?_drop]
    rw [h3, List.getElem?_append_left]
    have : w[i]? = some w[i] := List.getElem?_eq_getElem hi
    rw [h3] at this
    exact (List.getElem?_eq_some_iff.1 this).1
  have hskip : (((line ++ [0])[n0]? = some 35 ∨ n1 = line.length) ↔ Skipped line) := by
    constructor
    · rintro (h | h)
      · right
        by_cases hw : word line 0 = []
        · exfalso
          have hn1 := m0 hw
          rw [hw] at e0
          have : n0 = line.length := by have := e0.2.2.1; simp at this; omega
          rw [this, List.getElem?_append_right (Nat.le_refl _)] at h
          simp at h
        · have hl : 0 < (word line 0).length := by cases hx : word line 0 with
            | nil => exact absurd hx hw
            | cons a l => simp
          have := hget n0 (word line 0) e0.2.2.2 0 hl
          rw [Nat.add_zero, h] at this
          rw [List.head?_eq_getElem?]
          exact this.symm
      · left
        by_cases hw : word line 0 = []
        · have := word_nil line 0 hw
          exact List.length_eq_zero_iff.1 (by omega)
        · exfalso
          have hd : line.drop n0 = word line 0 := by
            rw [← e0.2.2.2]
            exact (List.take_of_length_le (by rw [List.length_drop]; omega)).symm
          have hl : 0 < (word line 0).length := by cases hx : word line 0 with
            | nil => exact absurd hx hw
            | cons a l => simp
          have hm : 10 ∈ word line 0 := by
            rw [← hd]
            refine List.mem_of_getElem? (i := line.length - 1 - n0) ?_
            rw [List.getElem?_drop, show n0 + (line.length - 1 - n0) = line.length - 1 by omega]
            exact hlast
          have := word_notwhite line 0 10 hm
          simp [white] at this
    · rintro (h | h)
      · right
        exact m0 (by simp [word, h])
      · left
        have hl : 0 < (word line 0).length := by cases hx : word line 0 with
            | nil => rw [hx] at h; simp at h
            | cons a l => simp
        have := hget n0 (word line 0) e0.2.2.2 0 hl
        rw [Nat.add_zero] at this
        rw [this, ← List.head?_eq_getElem?]
        exact h
  have hzero : ∀ (n i : Nat), (line.drop n).take (word line i).length = word line i → 0 ∉ word line i := by
    intro n i hw h0
    rw [← hw] at h0
    have := hal 0 (List.mem_of_mem_drop (List.mem_of_mem_take h0))
    omega
  have z1 : word line 1 = [] ∨ n1 < n2 := by
    by_cases h : word line 1 = []
    · exact .inl h
    · exact .inr (o0.2 h)
  have z2 : word line 2 = [] ∨ n3 < n4 := by
    by_cases h : word line 2 = []
    · exact .inl h
    · exact .inr (o1.2 h)
  have z3 : word line 3 = [] ∨ n5 < n6 := by
    by_cases h : word line 3 = []
    · exact .inl h
    · exact .inr (o2.2 h)
  have l1 : (word line 1).length = 0 ∨ n1 < n2 := z1.imp (fun h => by rw [h]; rfl) id
  have l2 : (word line 2).length = 0 ∨ n3 < n4 := z2.imp (fun h => by rw [h]; rfl) id
  have l3 : (word line 3).length = 0 ∨ n5 < n6 := z3.imp (fun h => by rw [h]; rfl) id
  by_cases hs : Skipped line
  · rw [if_pos (hskip.2 hs), if_pos hs]
  · rw [if_neg (fun h => hs (hskip.1 h)), if_neg hs]
    have hfield : ∀ (a b : Nat) (w : List Nat), a ≤ b → b ≤ line.length → b - a = w.length → (line.drop a).take w.length = w → 0 ∉ w →
        (b = n1 ∨ b = n3 ∨ b = n5 ∨ b = n7) →
        (∀ x, (x = n1 ∨ x = n3 ∨ x = n5 ∨ x = n7) → x < a ∨ b ≤ x ∨ a = b) →
        cstr ((((line ++ [0]).set n1 0).set n3 0 |>.set n5 0).set n7 0) a = w := by
      intro a b w hab hb hbw hw h0 hin hout
      refine cstr_eq _ w a h0 ?_ ?_
      · intro i hi
        rw [set4_get, if_neg, hget a w hw i hi]
        rintro ⟨hc, _⟩
        have := hout (a + i) hc
        omega
      · rw [set4_get, if_pos]
        refine ⟨by omega, by simp; omega⟩
    rw [hfield n0 n1 (word line 0) e0.1 e0.2.1 e0.2.2.1 e0.2.2.2 (hzero n0 0 e0.2.2.2) (by omega) (by omega),
      hfield n2 n3 (word line 1) e1.1 e1.2.1 e1.2.2.1 e1.2.2.2 (hzero n2 1 e1.2.2.2) (by omega) (by omega),
      hfield n4 n5 (word line 2) e2.1 e2.2.1 e2.2.2.1 e2.2.2.2 (hzero n4 2 e2.2.2.2) (by omega) (by omega),
      hfield n6 n7 (word line 3) e3.1 e3.2.1 e3.2.2.1 e3.2.2.2 (hzero n6 3 e3.2.2.2) (by omega) (by omega)]

theorem pieces_snoc (l : List Nat) (c : Nat) (h : white c = true) : pieces (l ++ [c]) = pieces l ++ [[]] := by
  induction l with
  | nil => simp [pieces, h]
  | cons a l ih =>
    rw [List.cons_append, pieces, pieces, ih]
    by_cases ha : white a = true
    · rw [if_pos ha, if_pos ha]; rfl
    · rw [if_neg ha, if_neg ha]
      cases hq : pieces l with
      | nil => exact absurd hq (pieces_ne l)
      | cons v r => rfl

theorem words_line (l : List Nat) : words (l ++ [10]) = words l := by
  unfold words
  rw [pieces_snoc l 10 rfl]
  simp

theorem word_line (l : List Nat) (i : Nat) : word (l ++ [10]) i = word l i := by
  unfold word; rw [words_line]

theorem skipped_line (l : List Nat) : Skipped (l ++ [10]) ↔ Skipped l := by
  unfold Skipped; rw [words_line, word_line]

/-- The buffer has room for the line, its newline and the terminator. -/
def Fits (buflen : Option Nat) (l : List Nat) : Prop := ∀ b, buflen = some b → l.length + 2 ≤ b

theorem readLine_line (buflen : Option Nat) (l rest : List Nat) (hl : 10 ∉ l) (hf : Fits buflen l) :
    readLine buflen (l ++ 10 :: rest) = some (l ++ [10], rest) := by
  have htw : (l ++ 10 :: rest).takeWhile (· != 10) = l := by
    rw [List.takeWhile_append_of_pos (by intro a ha; simp; intro h; exact hl (h ▸ ha))]
    simp
  have hd : (l ++ 10 :: rest).drop (l.length + 1) = rest := by
    rw [show l ++ 10 :: rest = (l ++ [10]) ++ rest by simp, show l.length + 1 = (l ++ [10]).length by simp, List.drop_left]
  unfold readLine
  simp only [htw, hd]
  cases buflen with
  | none => simp
  | some b =>
    have := hf b rfl
    simp only
    rw [if_pos (by omega)]
    simp

/-- What is read leaves room for the terminator in the caller's buffer, and nothing of the file is lost or repeated. -/
theorem readLine_room (b : Nat) (hb : 1 ≤ b) (file l rest : List Nat) (h : readLine (some b) file = some (l, rest)) :
    l.length + 1 ≤ b ∧ l ++ rest = file := by
  have hsplit := List.takeWhile_append_dropWhile (p := (· != 10)) (l := file)
  unfold readLine at h
  simp only at h
  split at h
  · rename_i h1
    split at h
    · rename_i h2
      injection h with h
      injection h with e1 e2
      subst e1
      refine ⟨by simp only [List.length_append, List.length_cons, List.length_nil]; omega, ?_⟩
      have hd : file.drop (file.takeWhile (· != 10)).length = file.dropWhile (· != 10) := by
        conv => lhs; arg 2; rw [← hsplit]
        rw [List.drop_left]
      cases hw : file.dropWhile (· != 10) with
      | nil =>
        rw [hw, List.append_nil] at hsplit
        rw [hsplit] at h2
        omega
      | cons c t =>
        have hc : c = 10 := by
          have := List.head_dropWhile_not (p := (· != 10)) (l := file) (by rw [hw]; simp)
          simpa [hw] using this
        rw [← e2, ← List.drop_drop, hd, hw, hc]
        rw [hw, hc] at hsplit
        simpa using hsplit
    · cases h
  · split at h
    · rename_i h1 h2
      injection h with h
      injection h with e1 e2
      subst e1 e2
      refine ⟨by simp only [List.length_take]; omega, List.take_append_drop _ _⟩
    · cases h

example : readLine (some 4) [97, 98, 99, 100, 10] = some ([97, 98, 99], [100, 10]) := by decide

theorem readLine_end (buflen : Option Nat) (l : List Nat) (hl : 10 ∉ l) (hf : Fits buflen l) : readLine buflen l = none := by
  have htw : l.takeWhile (· != 10) = l := by
    have := List.takeWhile_append_of_pos (p := (· != 10)) (l₁ := l) (l₂ := []) (by intro a ha; simp; intro h; exact hl (h ▸ ha))
    simpa using this
  unfold readLine
  simp only [htw]
  cases buflen with
  | none => simp
  | some b =>
    have := hf b rfl
    simp only
    rw [if_pos (by omega), if_neg (by omega)]

/-- Lines as bytes of a file. -/
def file (ls : List (List Nat)) : List Nat := ls.flatMap (· ++ [10])

/-- The numbers after skipping the lines. -/
def numbersAfter (ls : List (List Nat)) (f p : Int) : Int × Int :=
  ls.foldl (fun q l => numbers (l ++ [10]) q.1 q.2) (f, p)

/-- A line of an ASCII text. -/
def Line (l : List Nat) : Prop := Ascii l ∧ 10 ∉ l ∧ l.length < 2 ^ 31 - 1

theorem loop_skip (buflen : Option Nat) (skips : List (List Nat)) (hs : ∀ l ∈ skips, Line l ∧ Fits buflen l ∧ Skipped l) (rest : List Nat)
    (fuel : Nat) : ∀ f p, getLoop buflen (skips.length + fuel) (file skips ++ rest) f p
      = getLoop buflen fuel rest (numbersAfter skips f p).1 (numbersAfter skips f p).2 := by
  induction skips with
  | nil => intro f p; simp [file, numbersAfter]
  | cons l ls ih =>
    intro f p
    obtain ⟨⟨h1, h2, h3⟩, h4, h5⟩ := hs l (by simp)
    have hfile : file (l :: ls) ++ rest = l ++ 10 :: (file ls ++ rest) := by simp [file]
    rw [hfile, show (l :: ls).length + fuel = (ls.length + fuel) + 1 by simp; omega, getLoop, readLine_line buflen l _ h2 h4]
    simp only
    rw [if_neg (by simp), parse_ok l h1 h3, if_pos ((skipped_line l).2 h5)]
    simp only [Res.bind]
    rw [ih (fun x hx => hs x (by simp [hx]))]
    rfl

theorem file_length (ls : List (List Nat)) : ls.length ≤ (file ls).length := by
  induction ls with
  | nil => simp [file]
  | cons l ls ih =>
    have : file (l :: ls) = l ++ [10] ++ file ls := by simp [file]
    rw [this]; simp; omega

/-- What sscanf leaves in the entry for a line, given the numbers before. -/
theorem getmntent_raw (buflen : Option Nat) (skips : List (List Nat)) (hs : ∀ l ∈ skips, Line l ∧ Fits buflen l ∧ Skipped l)
    (l rest : List Nat) (hl : Line l) (hf : Fits buflen l) (hn : ¬ Skipped l) :
    getmntent buflen (file skips ++ (l ++ 10 :: rest)) = .ok (some ⟨word l 0, word l 1, word l 2, word l 3,
      (numbers (l ++ [10]) (numbersAfter skips 0 0).1 (numbersAfter skips 0 0).2).1,
      (numbers (l ++ [10]) (numbersAfter skips 0 0).1 (numbersAfter skips 0 0).2).2⟩, rest) := by
  unfold getmntent
  have hlen := file_length skips
  obtain ⟨d, hd⟩ : ∃ d, (file skips ++ (l ++ 10 :: rest)).length + 1 = skips.length + (d + 1) :=
    ⟨(file skips ++ (l ++ 10 :: rest)).length - skips.length, by
      have : skips.length ≤ (file skips ++ (l ++ 10 :: rest)).length := by rw [List.length_append]; omega
      omega⟩
  rw [hd, loop_skip buflen skips hs, getLoop, readLine_line buflen l rest hl.2.1 hf]
  simp only
  rw [if_neg (by simp), parse_ok l hl.1 hl.2.2, if_neg (fun h => hn ((skipped_line l).1 h))]
  simp only [Res.bind, word_line]

/-! ### The numbers -/

theorem int_read (s r : List Nat) (a : Int) (hs : s.dropWhile cSpace = intText a ++ r) (hr : ∀ c, r.head? = some c → cSpace c = true) :
    int cSpace 0 .int .d s = .done (.int 32 ((a % 2 ^ 32).toNat)) r := by
  have hdig := Strtol.decimal_digits a.natAbs
  have hne := Strtol.decimal_ne_nil a.natAbs
  have hval : number 10 (Strtol.decimal a.natAbs) = a.natAbs := by
    have h := decimal_value a.natAbs
    unfold number
    rw [← h]
    have : ∀ (l : List Nat) (v : Nat), (∀ c ∈ l, 48 ≤ c ∧ c ≤ 57) →
        l.foldl (fun v c => v * 10 + value c) v = l.foldl (fun a c => a * 10 + (c - 48)) v := by
      intro l
      induction l with
      | nil => intro v _; rfl
      | cons c l ih =>
        intro v hc
        have h1 := hc c (by simp)
        simp only [List.foldl_cons]
        rw [ih _ (fun x hx => hc x (by simp [hx]))]
        simp [value, h1.2]
    rw [h]
    have h2 := this _ 0 hdig
    rw [h2, h]
  have htw : (Strtol.decimal a.natAbs ++ r).takeWhile (digit 10) = Strtol.decimal a.natAbs := by
    rw [List.takeWhile_append_of_pos (by
      intro c hc
      have := hdig c hc
      simp [digit, alnum, value, this.1, this.2]
      omega)]
    cases r with
    | nil => simp
    | cons c r =>
      have := hr c rfl
      have hcs : c = 32 ∨ (9 ≤ c ∧ c ≤ 13) := by simpa [cSpace] using this
      rw [List.takeWhile_cons_of_neg (by
        simp [digit, alnum]
        omega)]
      simp
  have hsne : ¬ (intText a ++ r = []) := by
    unfold intText
    split <;> simp [hne]
  unfold int
  simp only [hs]
  rw [if_neg hsne]
  simp only [if_true]
  unfold intText
  by_cases hneg : a < 0
  · rw [if_pos hneg]
    simp only [List.cons_append, signed, base, htw]
    rw [if_neg hne, hval, if_pos trivial]
    have : (-(a.natAbs : Int)) = a := by omega
    rw [this]
    congr 1
    rw [show (45 :: (Strtol.decimal a.natAbs ++ r)).length - (Strtol.decimal a.natAbs ++ r).length + (Strtol.decimal a.natAbs).length
      = (45 :: Strtol.decimal a.natAbs).length by simp; omega, ← List.cons_append, List.drop_left]
  · rw [if_neg hneg]
    have hsg : signed (Strtol.decimal a.natAbs ++ r) = (false, Strtol.decimal a.natAbs ++ r) := by
      cases hq : Strtol.decimal a.natAbs with
      | nil => exact absurd hq hne
      | cons c q =>
        have := hdig c (by rw [hq]; simp)
        rw [List.cons_append]
        unfold signed
        split
        · rename_i h; simp at h; omega
        · rename_i h; simp at h; omega
        · rfl
    rw [hsg]
    simp only [base, htw]
    rw [if_neg hne, hval, if_neg (by simp)]
    have : ((a.natAbs : Nat) : Int) = a := by omega
    rw [this]
    congr 1
    rw [Nat.sub_self, Nat.zero_add, List.drop_left]

theorem toInt_mod (a : Int) (h1 : -2 ^ 31 ≤ a) (h2 : a < 2 ^ 31) : toInt ((a % 2 ^ 32).toNat) = a := by
  unfold toInt
  split <;> omega

/-- Four words read: what is left has the words after them. -/
theorem four_words (line : List Nat) (hlen : line.length < 2 ^ 31) (hw : 4 ≤ (words line).length) :
    ∃ q st, (scan cSpace dirs line).stores
        = (run cSpace line.length [.space 32, .int false 0 .int .d, .space 32, .int false 0 .int .d] q 0 st).stores ∧
      st.length = 8 ∧ words q = (words line).drop 4 := by
  have step : ∀ (k : Nat) (r : List Nat) (st : List Store) (ds : List Dir), Pre line k r st → k < 4 →
      ∃ q st', run cSpace line.length (block ++ ds) r 0 st = run cSpace line.length ds q 0 st' ∧ Pre line (k + 1) q st' := by
    intro k r st ds h hk
    rcases split_word r with ⟨h1, h2⟩ | ⟨w, q, h1, h2, h3, h4, h5, h6⟩
    · exfalso
      have := congrArg List.length h.rest
      rw [h2, List.length_drop] at this
      simp at this; omega
    · refine ⟨q, _, run_block_some _ _ _ w q _ _ (by rw [← white_fun]; exact h1) h2 ?_ hlen ?_, h.next h1 h2 h4 h5⟩
      · rw [← white_fun, ← h1]; exact h6
      · have := (dropWhile_suffix white r).2
        rw [h1, List.length_append] at this
        have := h.le
        omega
  obtain ⟨q1, s1, e1, p1⟩ := step 0 line [] (block ++ (block ++ (block ++
    [.space 32, .int false 0 .int .d, .space 32, .int false 0 .int .d]))) (pre_start line) (by omega)
  obtain ⟨q2, s2, e2, p2⟩ := step 1 q1 s1 (block ++ (block ++
    [.space 32, .int false 0 .int .d, .space 32, .int false 0 .int .d])) p1 (by omega)
  obtain ⟨q3, s3, e3, p3⟩ := step 2 q2 s2 (block ++ [.space 32, .int false 0 .int .d, .space 32, .int false 0 .int .d]) p2 (by omega)
  obtain ⟨q4, s4, e4, p4⟩ := step 3 q3 s3 [.space 32, .int false 0 .int .d, .space 32, .int false 0 .int .d] p3 (by omega)
  refine ⟨q4, s4, ?_, p4.len, p4.rest.symm⟩
  unfold scan dirs
  rw [e1, e2, e3, e4]

theorem next_word (q w : List Nat) (ws : List (List Nat)) (h : words q = w :: ws) :
    ∃ r, q.dropWhile cSpace = w ++ r ∧ (∀ c, r.head? = some c → cSpace c = true) ∧ words r = ws := by
  rw [← white_fun]
  rcases split_word q with ⟨_, h2⟩ | ⟨v, r, h1, _, _, h4, h5, _⟩
  · rw [h2] at h; cases h
  · rw [h5] at h
    cases h
    exact ⟨r, h1, h4, rfl⟩

theorem numbers_six (line : List Nat) (hlen : line.length < 2 ^ 31) (a b c d : List Nat) (f p : Int) (hf : -2 ^ 31 ≤ f ∧ f < 2 ^ 31)
    (hp : -2 ^ 31 ≤ p ∧ p < 2 ^ 31) (hw : words line = [a, b, c, d, intText f, intText p]) (f0 p0 : Int) :
    numbers line f0 p0 = (f, p) := by
  obtain ⟨q, st, h1, h2, h3⟩ := four_words line hlen (by rw [hw]; simp)
  rw [hw] at h3
  obtain ⟨r, k1, k2, k3⟩ := next_word q _ _ h3
  obtain ⟨r', j1, j2, j3⟩ := next_word r _ _ k3
  unfold numbers
  rw [h1]
  simp only [run]
  rw [int_read (q.dropWhile cSpace) r f (by rw [dropWhile_idem]; exact k1) k2]
  simp only [Bool.false_eq_true, if_false]
  rw [int_read (r.dropWhile cSpace) r' p (by rw [dropWhile_idem]; exact j1) j2]
  have i1 : (st ++ [Store.int 32 ((f % 2 ^ 32).toNat)] ++ [Store.int 32 ((p % 2 ^ 32).toNat)])[8]? = some (.int 32 ((f % 2 ^ 32).toNat)) := by
    rw [List.append_assoc, List.getElem?_append_right (by omega), h2]; rfl
  have i2 : (st ++ [Store.int 32 ((f % 2 ^ 32).toNat)] ++ [Store.int 32 ((p % 2 ^ 32).toNat)])[9]? = some (.int 32 ((p % 2 ^ 32).toNat)) := by
    rw [List.append_assoc, List.getElem?_append_right (by omega), h2]; rfl
  simp only [Bool.false_eq_true, if_false, storedInt]
  rw [i1, i2]
  simp only [toInt_mod f hf.1 hf.2, toInt_mod p hp.1 hp.2]

theorem few_stores (line : List Nat) (hlen : line.length < 2 ^ 31) (hw : (words line).length < 4) :
    (scan cSpace dirs line).stores.length ≤ 7 := by
  have step : ∀ (k : Nat) (r : List Nat) (st : List Store) (ds : List Dir), Pre line k r st → k < 4 →
      (run cSpace line.length (block ++ ds) r 0 st).stores.length ≤ 7 ∨
      ∃ q st', run cSpace line.length (block ++ ds) r 0 st = run cSpace line.length ds q 0 st' ∧ Pre line (k + 1) q st' := by
    intro k r st ds h hk
    rcases split_word r with ⟨h1, h2⟩ | ⟨w, q, h1, h2, h3, h4, h5, h6⟩
    · left
      rw [run_block_none _ _ _ _ _ (by rw [← white_fun]; exact h1) hlen, List.length_append, h.len]
      simp; omega
    · right
      refine ⟨q, _, run_block_some _ _ _ w q _ _ (by rw [← white_fun]; exact h1) h2 ?_ hlen ?_, h.next h1 h2 h4 h5⟩
      · rw [← white_fun, ← h1]; exact h6
      · have := (dropWhile_suffix white r).2
        rw [h1, List.length_append] at this
        have := h.le
        omega
  unfold scan dirs
  rcases step 0 line [] (block ++ (block ++ (block ++
    [.space 32, .int false 0 .int .d, .space 32, .int false 0 .int .d]))) (pre_start line) (by omega) with h | ⟨q1, s1, e1, p1⟩
  · exact h
  rw [e1]
  rcases step 1 q1 s1 (block ++ (block ++
    [.space 32, .int false 0 .int .d, .space 32, .int false 0 .int .d])) p1 (by omega) with h | ⟨q2, s2, e2, p2⟩
  · exact h
  rw [e2]
  rcases step 2 q2 s2 (block ++ [.space 32, .int false 0 .int .d, .space 32, .int false 0 .int .d]) p2 (by omega) with h | ⟨q3, s3, e3, p3⟩
  · exact h
  rw [e3]
  rcases step 3 q3 s3 [.space 32, .int false 0 .int .d, .space 32, .int false 0 .int .d] p3 (by omega) with h | ⟨q4, s4, e4, p4⟩
  · exact h
  exfalso
  obtain ⟨a, b, _, _, _, _, _, _, _, q8⟩ := p4.fields 3 (by omega)
  apply q8
  unfold word
  rw [List.getElem?_eq_none (by omega)]
  rfl

theorem numbers_few (line : List Nat) (hlen : line.length < 2 ^ 31) (hw : (words line).length ≤ 4) (f p : Int) :
    numbers line f p = (f, p) := by
  have key : (scan cSpace dirs line).stores.length ≤ 8 := by
    rcases Nat.lt_or_ge (words line).length 4 with h | h
    · have := few_stores line hlen h; omega
    · obtain ⟨q, st, h1, h2, h3⟩ := four_words line hlen h
      rw [List.drop_of_length_le hw] at h3
      have hq : q.dropWhile cSpace = [] := by
        rw [← white_fun]
        rcases split_word q with ⟨k1, _⟩ | ⟨w, r, _, _, _, _, h5, _⟩
        · exact k1
        · rw [h5] at h3; cases h3
      rw [h1]
      simp [run, hq, int]
      omega
  unfold numbers storedInt
  rw [List.getElem?_eq_none (by omega), List.getElem?_eq_none (by omega)]

/-! ## Theorems -/

theorem numbersAfter_few (skips : List (List Nat)) (h : ∀ l ∈ skips, l.length < 2 ^ 31 - 1 ∧ (words l).length ≤ 4) (f p : Int) :
    numbersAfter skips f p = (f, p) := by
  induction skips with
  | nil => rfl
  | cons l ls ih =>
    have h1 := h l (by simp)
    unfold numbersAfter
    rw [List.foldl_cons, numbers_few (l ++ [10]) (by simp; omega) (by rw [words_line]; exact h1.2)]
    exact ih (fun x hx => h x (by simp [hx]))

/-- **C82, reading.** In an ASCII file, getmntent (and getmntent_r with a buffer in which the lines fit) passes over the blank lines and
those whose first word begins with #, and gives the first four words of the next line (empty ones if there are fewer), the file
being left after that line. The numbers are the fifth and sixth word if they are decimal numbers, and 0 if the line and the lines
passed over have at most four words. -/
theorem getmntent_partial (buflen : Option Nat) (skips : List (List Nat)) (hs : ∀ l ∈ skips, Line l ∧ Fits buflen l ∧ Skipped l)
    (l rest : List Nat) (hl : Line l) (hf : Fits buflen l) (hn : ¬ Skipped l) :
    ∃ m, getmntent buflen (file skips ++ (l ++ 10 :: rest)) = .ok (some m, rest) ∧
      m.fsname = word l 0 ∧ m.dir = word l 1 ∧ m.type = word l 2 ∧ m.opts = word l 3 ∧
      (∀ f p : Int, (-2 ^ 31 ≤ f ∧ f < 2 ^ 31) → (-2 ^ 31 ≤ p ∧ p < 2 ^ 31) → (words l).drop 4 = [intText f, intText p] →
        m.freq = f ∧ m.passno = p) ∧
      ((words l).length ≤ 4 → (∀ x ∈ skips, (words x).length ≤ 4) → m.freq = 0 ∧ m.passno = 0) := by
  refine ⟨_, getmntent_raw buflen skips hs l rest hl hf hn, rfl, rfl, rfl, rfl, ?_, ?_⟩
  · intro f p hfr hpr hw
    have hlen : (l ++ [10]).length < 2 ^ 31 := by have := hl.2.2; simp; omega
    have h4 : ∃ a b c d, words l = [a, b, c, d, intText f, intText p] := by
      rcases hq : words l with _ | ⟨a, _ | ⟨b, _ | ⟨c, _ | ⟨d, r⟩⟩⟩⟩
      all_goals rw [hq] at hw
      all_goals simp at hw
      exact ⟨a, b, c, d, by rw [hw]⟩
    obtain ⟨a, b, c, d, h⟩ := h4
    rw [numbers_six (l ++ [10]) hlen a b c d f p hfr hpr (by rw [words_line]; exact h)]
    exact ⟨rfl, rfl⟩
  · intro h4 hsk
    have hlen : (l ++ [10]).length < 2 ^ 31 := by have := hl.2.2; simp; omega
    rw [numbers_few (l ++ [10]) hlen (by rw [words_line]; exact h4), numbersAfter_few skips (fun x hx => ⟨(hs x hx).1.2.2, hsk x hx⟩)]
    exact ⟨rfl, rfl⟩

/-- **C82, end of the file.** If only such lines are left, getmntent gives NULL. -/
theorem getmntent_end (buflen : Option Nat) (skips : List (List Nat)) (hs : ∀ l ∈ skips, Line l ∧ Fits buflen l ∧ Skipped l)
    (hb : buflen ≠ some 0 ∧ buflen ≠ some 1) : getmntent buflen (file skips) = .ok (none, []) := by
  unfold getmntent
  have hlen := file_length skips
  obtain ⟨d, hd⟩ : ∃ d, (file skips).length + 1 = skips.length + (d + 1) := ⟨(file skips).length - skips.length, by omega⟩
  have := loop_skip buflen skips hs [] (d + 1) 0 0
  rw [List.append_nil] at this
  rw [hd, this, getLoop, readLine_end buflen [] (by simp)]
  intro b hb'
  rw [hb'] at hb
  have h0 : b ≠ 0 := fun h => hb.1 (by rw [h])
  have h1 : b ≠ 1 := fun h => hb.2 (by rw [h])
  simp
  omega

/-- A field that can be written: not empty, ASCII, without white space. -/
def Plain (w : List Nat) : Prop := w ≠ [] ∧ ∀ c ∈ w, 0 < c ∧ c < 128 ∧ white c = false

theorem intText_plain (a : Int) : Plain (intText a) := by
  have hdig := Strtol.decimal_digits a.natAbs
  have hne := Strtol.decimal_ne_nil a.natAbs
  have hall : ∀ c ∈ Strtol.decimal a.natAbs, 0 < c ∧ c < 128 ∧ white c = false := by
    intro c hc
    have := hdig c hc
    refine ⟨by omega, by omega, ?_⟩
    rw [white_eq]
    simp [cSpace]
    omega
  unfold intText
  split
  · refine ⟨by simp, ?_⟩
    intro c hc
    rcases List.mem_cons.1 hc with rfl | hc
    · decide
    · exact hall c hc
  · exact ⟨hne, hall⟩

theorem words_cons (w r : List Nat) (hw : Plain w) : words (w ++ 9 :: r) = w :: words r := by
  rw [words_word w (9 :: r) hw.1 (fun c hc => (hw.2 c hc).2.2) (by intro c hc; simp at hc; subst hc; rfl), words_white 9 r rfl]

theorem words_single (w : List Nat) (hw : Plain w) : words w = [w] := by
  have := words_word w [] hw.1 (fun c hc => (hw.2 c hc).2.2) (by simp)
  rw [List.append_nil] at this
  rw [this]; rfl

/-- The line without its newline. -/
def addLine (m : Mnt) : List Nat :=
  m.fsname ++ 9 :: (m.dir ++ 9 :: (m.type ++ 9 :: (m.opts ++ 9 :: (intText m.freq ++ 9 :: intText m.passno))))

/-- **C82, round trip.** Entries written with addmntent, with fields that are not empty, ASCII and without white space, are read back one
by one, whatever follows. -/
theorem add_get (m : Mnt) (h1 : Plain m.fsname) (h2 : Plain m.dir) (h3 : Plain m.type) (h4 : Plain m.opts)
    (hc : m.fsname.head? ≠ some 35) (hf : -2 ^ 31 ≤ m.freq ∧ m.freq < 2 ^ 31) (hp : -2 ^ 31 ≤ m.passno ∧ m.passno < 2 ^ 31)
    (hlen : (addText m).length < 2 ^ 31) (rest : List Nat) : getmntent none (addText m ++ rest) = .ok (some m, rest) := by
  have h5 := intText_plain m.freq
  have h6 := intText_plain m.passno
  have htext : addText m ++ rest = file [] ++ (addLine m ++ 10 :: rest) := by simp [addText, addLine, file]
  have hal : addText m = addLine m ++ [10] := by simp [addText, addLine]
  have hw : words (addLine m) = [m.fsname, m.dir, m.type, m.opts, intText m.freq, intText m.passno] := by
    unfold addLine
    rw [words_cons _ _ h1, words_cons _ _ h2, words_cons _ _ h3, words_cons _ _ h4, words_cons _ _ h5, words_single _ h6]
  have hmem : ∀ c ∈ addLine m, c = 9 ∨ (0 < c ∧ c < 128 ∧ white c = false) := by
    intro c hc
    simp only [addLine, List.mem_append, List.mem_cons] at hc
    rcases hc with hc | hc | hc | hc | hc | hc | hc | hc | hc | hc | hc
    all_goals first
      | exact .inl hc
      | exact .inr (h1.2 c hc)
      | exact .inr (h2.2 c hc)
      | exact .inr (h3.2 c hc)
      | exact .inr (h4.2 c hc)
      | exact .inr (h5.2 c hc)
      | exact .inr (h6.2 c hc)
  have hline : Line (addLine m) := by
    refine ⟨?_, ?_, ?_⟩
    · intro c hc
      rcases hmem c hc with rfl | h
      · decide
      · exact ⟨h.1, h.2.1⟩
    · intro h10
      rcases hmem 10 h10 with h | h
      · cases h
      · simp [white] at h
    · rw [hal] at hlen; simp at hlen; omega
  have hns : ¬ Skipped (addLine m) := by
    unfold Skipped word
    rw [hw]
    simp [hc]
  obtain ⟨m', k1, k2, k3, k4, k5, k6, _⟩ := getmntent_partial none [] (by simp) (addLine m) rest hline (fun b hb => by cases hb) hns
  rw [htext, k1]
  have hn := k6 m.freq m.passno hf hp (by rw [hw]; rfl)
  obtain ⟨a, b, c, d, e, g⟩ := m'
  unfold word at k2 k3 k4 k5
  rw [hw] at k2 k3 k4 k5
  simp only [List.getElem?_cons_zero, List.getElem?_cons_succ, Option.getD_some] at k2 k3 k4 k5 hn
  rw [k2, k3, k4, k5, hn.1, hn.2]

/-- The hypotheses are met: /dev/a on / of type ext4. -/
example : Plain [47, 100] ∧ Plain [47] ∧ ([47, 100] : List Nat).head? ≠ some 35 := by
  refine ⟨⟨by simp, ?_⟩, ⟨by simp, ?_⟩, by simp⟩ <;> decide

example : Line [35, 32, 97] ∧ Skipped [35, 32, 97] := by
  refine ⟨⟨by unfold Ascii; decide, by decide, by decide⟩, .inr (by decide)⟩

/-- **C82, options.** An option that is among the comma-separated ones is found. -/
theorem hasmntopt_partial (m : Mnt) (opt before after : List Nat) (h0 : 0 ∉ m.opts) (ho : m.opts = before ++ opt ++ after) :
    ∃ i, hasmntopt m opt = .ok (some i) := by
  have h1 : Str.CStr (m.opts ++ [0]) m.opts := ⟨h0, [], by simp⟩
  have h2 : Str.CStr (opt ++ [0]) opt := ⟨fun h => h0 (by rw [ho]; simp [h]), [], by simp⟩
  rcases Str.strstr_first _ _ _ _ h1 h2 with ⟨i, h, _⟩ | ⟨_, h⟩
  · exact ⟨i, h⟩
  · exact absurd ⟨before, after, by rw [ho]⟩ h

/-- `"a b c noauto 0 0"` -/
def demo : Mnt := ⟨[97], [98], [99], [110, 111, 97, 117, 116, 111], 0, 0⟩

/-- **C82, violation.** hasmntopt finds the option "auto" in the options "noauto". -/
theorem hasmntopt_violated : hasmntopt demo [97, 117, 116, 111] = .ok (some 2) := by decide +kernel

/-- **C82, violation.** A field with a space is written as it is and comes back split. -/
theorem add_space_violated : ∃ m rest m', addText m = rest ∧ getmntent none rest = .ok (some m', []) ∧ m'.dir ≠ m.dir :=
  ⟨⟨[97], [98, 32, 99], [100], [101], 0, 0⟩, _, ⟨[97], [98], [99], [100], 0, 0⟩, rfl, by decide +kernel, by decide⟩

/-- **C82, violation.** The escape `\040` for a space is not decoded. -/
theorem escape_violated : getmntent none [97, 32, 92, 48, 52, 48, 32, 99, 32, 100, 10]
    = .ok (some ⟨[97], [92, 48, 52, 48], [99], [100], 0, 0⟩, []) := by decide +kernel

/-- **C82, violation.** A last line without newline is lost. -/
theorem last_line_violated : getmntent none [97, 32, 98, 32, 99, 32, 100] = .ok (none, []) := by decide +kernel

/-- **C82, violation.** The numbers of a comment line ("# b c d 5 6") appear in the entry after it ("a b c d"), which has none. -/
theorem stale_violated : getmntent none
      [35, 32, 98, 32, 99, 32, 100, 32, 53, 32, 54, 10, 97, 32, 98, 32, 99, 32, 100, 10]
    = .ok (some ⟨[97], [98], [99], [100], 5, 6⟩, []) := by decide +kernel

/-- **C82, violation.** A mount point with a byte above 127 (as in UTF-8) ends the process. -/
theorem high_byte_violated : getmntent none [97, 32, 195, 169, 32, 99, 32, 100, 10] = .panic := by decide +kernel

end Mlibc.Mntent
