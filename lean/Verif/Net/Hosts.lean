import Verif.Net.Services

/-
/etc/hosts: the lookups of options/posix/generic/lookup.cpp for a name (getaddrinfo, gethostbyname) and for an address (getnameinfo).
Property C85.

A text is the list of its bytes. `inet_pton` and `inet_ntop` (C49) are parameters. The line buffer is not initialised: what it holds
behind the line is arbitrary (`stale`), or left over from earlier lines.
-/
namespace Mlibc.Hosts
open Mlibc Mlibc.Services Mlibc.Words

/-! ## The code -/

/-- `fgets(line, 128, file)`: the line and a zero byte over what was there; then L418-421 (L498-501), a comment becomes the end of the line. -/
def fill (buf line : List Nat) : List Nat :=
  let put := fun (b l : List Nat) => l ++ 0 :: b.drop (l.length + 1)
  let l := line.takeWhile (· ≠ 0)
  if 35 ∈ l then put (put buf line) (l.takeWhile (· ≠ 35) ++ [10]) else put buf line

/-- The string at a position. -/
def cstr (s : List Nat) : List Nat := s.takeWhile (· ≠ 0)

/-- lookup.cpp L423-426: is there an occurrence of `name` in `s` with space on both sides? `prev` is the character before `s`. The search that
strstr makes is this walk over all positions; `name` is not empty. -/
def findHost (name : List Nat) : Nat → List Nat → Bool
  | _, [] => false
  | prev, c :: s =>
    (space prev && name.isPrefixOf (c :: s) && (match ((c :: s).drop name.length).head? with | none => false | some d => space d)) ||
      findHost name c s

/-- lookup.cpp L452-460: the aliases, from the end of the official name on. `none`: not finished after `fuel` iterations. -/
def aliasLoop : Nat → List Nat → Res (Option (List (List Nat)))
  | 0, _ => .ok none
  | fuel + 1, s =>
    match s with
    | c :: d :: s' =>
      if d = 0 then .ok (some [])
      else
        let s1 := (c :: d :: s').dropWhile (fun c => c ≠ 0 && space c)
        let w := s1.takeWhile (fun c => c ≠ 0 && !space c)
        (aliasLoop fuel (s1.drop w.length)).bind fun r => .ok (r.map (w :: ·))
    | _ => .ub

/-- `struct dns_addr_buf`, include/mlibc/lookup.hpp L15-21. -/
structure Addr where
  family : Nat
  addr : List Nat
  name : List Nat
  deriving DecidableEq, Repr

/-- `inet_pton(family, text, ...)`: the bytes of the address. -/
abbrev Pton := Nat → List Nat → Option (List Nat)

/-- lookup.cpp L433-439: the address in the families that are wanted (0: any, 2: AF_INET, 10: AF_INET6). -/
def address (pton : Pton) (family : Nat) (text : List Nat) : Option (Nat × List Nat) :=
  match (if family = 0 ∨ family = 2 then pton 2 text else none) with
  | some a => some (2, a)
  | none =>
    match (if family = 0 ∨ family = 10 then pton 10 text else none) with
    | some a => some (10, a)
    | none => none

/-- lookup.cpp L422-460: one pass of the loop, with the buffer as fgets and L418-421 left it. No result: `continue`. -/
def nameLine (pton : Pton) (fuel : Nat) (name : List Nat) (family : Nat) (buf : List Nat) : Res (Option (Option (Addr × List (List Nat)))) :=
  if findHost name (buf.head?.getD 0) (cstr (buf.drop 1)) then
    let text := buf.takeWhile (fun c => !space c)
    match address pton family text with
    | none => .ok (some none)
    | some (f, a) =>
      let r1 := (buf.drop (text.length + 1)).dropWhile (fun c => c ≠ 0 && space c)
      let official := r1.takeWhile (fun c => c ≠ 0 && !space c)
      (aliasLoop fuel (r1.drop official.length)).bind fun r => .ok (r.map (fun as => some (⟨f, a, official⟩, as)))
  else .ok (some none)

/-- What lookup_name_hosts gives back: addresses, aliases, and the canonical name (empty: not set). -/
structure Result where
  addrs : List Addr
  aliases : List (List Nat)
  canon : List Nat
  deriving DecidableEq, Repr

/-- lookup.cpp L415-461: the loop over the lines. `none`: it does not get to its end within the iterations allowed. -/
def nameLines (pton : Pton) (fuel : Nat) (name : List Nat) (family : Nat) : List Nat → List (List Nat) → Result → Res (Option Result)
  | _, [], res => .ok (some res)
  | buf, l :: ls, res =>
    (nameLine pton fuel name family (fill buf l)).bind fun
      | none => .ok none
      | some none => nameLines pton fuel name family (fill buf l) ls res
      | some (some (a, as)) => nameLines pton fuel name family (fill buf l) ls ⟨res.addrs ++ [a], res.aliases ++ as, a.name⟩

/-- lookup.cpp L399-465 `lookup_name_hosts`, with the contents of the file. -/
def lookupName (pton : Pton) (fuel : Nat) (stale file name : List Nat) (family : Nat) : Res (Option Result) :=
  nameLines pton fuel name family stale (Db.reads 127 file.length file) ⟨[], [], []⟩

/-- What lookup_addr_hosts gives back: the text written to `name`, nothing found, or -EAI_OVERFLOW. -/
inductive Host where
  | name (s : List Nat)
  | missing
  | overflow
  deriving DecidableEq, Repr

/-- lookup.cpp L495-516, with `text` the text of the address and `size` the bytes of room. The scan of L507 stops at a space only. -/
def addrLines (text : List Nat) (size : Nat) : List Nat → List (List Nat) → Res Host
  | _, [] => .ok .missing
  | buf, l :: ls =>
    let b := fill buf l
    if text.isPrefixOf (cstr b) then
      let r := (b.drop (text.length + 1)).dropWhile space
      if r.any space then
        let host := r.takeWhile (fun c => !space c)
        if host.length ≥ size then .ok .overflow else .ok (.name host)
      else .ub
    else addrLines text size b ls

/-- lookup.cpp L467-518 `lookup_addr_hosts`, with the contents of the file and the text that inet_ntop makes of the address. -/
def lookupAddr (stale file text : List Nat) (size : Nat) : Res Host :=
  addrLines text size stale (Db.reads 127 file.length file)

/-! ## Specification -/

/-- The words of a line, without the comment behind #. -/
def fields (line : List Nat) : List (List Nat) := words (line.takeWhile (· ≠ 35))

/-- A line of a well-formed file: blank up to the comment, or beginning with an address and a name, with no space after the last word before the
comment or the end of the line. -/
def GoodLine (line : List Nat) : Prop :=
  10 ∉ line ∧ 0 ∉ line ∧ line.length < 127 ∧
    (fields line = [] ∨ ((∀ c, line.head? = some c → white c = false) ∧ 2 ≤ (fields line).length ∧
      ∀ c, (line.takeWhile (· ≠ 35)).getLast? = some c → white c = false))

/-- The line gives an address for the name: its official name or an alias is this name, and its first word is an address of the family that is
asked for (0: both). -/
def answer (pton : Pton) (name : List Nat) (family : Nat) (line : List Nat) : Option (Addr × List (List Nat)) :=
  match fields line with
  | a :: official :: aliases =>
    if name = official ∨ name ∈ aliases then
      if (family = 0 ∨ family = 2) ∧ (pton 2 a).isSome then some (⟨2, (pton 2 a).getD [], official⟩, aliases)
      else if (family = 0 ∨ family = 10) ∧ (pton 10 a).isSome then some (⟨10, (pton 10 a).getD [], official⟩, aliases)
      else none
    else none
  | _ => none

/-! ## Proofs -/

theorem bind_ok {α β : Type} (a : α) (f : α → Res β) : (Res.ok a).bind f = f a := rfl

theorem fill_eq (buf line : List Nat) (h0 : 0 ∉ line) : ∃ tail, fill buf (line ++ [10]) = line.takeWhile (· ≠ 35) ++ 10 :: 0 :: tail := by
  have hl : (line ++ [10]).takeWhile (· ≠ 0) = line ++ [10] := by
    apply Strtol.takeWhile_all
    intro c hc
    have : c ≠ 0 := by
      rintro rfl
      simp at hc
      exact h0 hc
    simp [this]
  have hc := cutComment_eq line
  unfold cutComment at hc
  unfold fill
  dsimp only
  rw [hl]
  by_cases h : 35 ∈ line ++ [10]
  · rw [if_pos h] at hc ⊢
    rw [hc]
    exact ⟨_, by simp only [List.append_assoc, List.cons_append, List.nil_append]; rfl⟩
  · rw [if_neg h] at hc ⊢
    rw [hc]
    exact ⟨_, by simp only [List.append_assoc, List.cons_append, List.nil_append]; rfl⟩

theorem cstr_eq (s tail : List Nat) (h : 0 ∉ s) : cstr (s ++ 0 :: tail) = s := by
  apply takeWhile_split
  · intro c hc
    have : c ≠ 0 := fun e => h (e ▸ hc)
    simp [this]
  · simp

/-- In a text that ends in a newline the search is that of services.cpp. -/
theorem findHost_eq (name : List Nat) (hw : ∀ c ∈ name, white c = false) (s : List Nat) (prev : Nat) (hl : s = [] ∨ s.getLast? = some 10) :
    findHost name prev s = findName name (space prev) s := by
  induction s generalizing prev with
  | nil => rfl
  | cons c s ih =>
    have hl' : (c :: s).getLast? = some 10 := by simpa using hl
    have hs : s = [] ∨ s.getLast? = some 10 := by
      cases s with
      | nil => left; rfl
      | cons d s => right; simpa [List.getLast?_cons_cons] using hl'
    rw [findHost, findName, ih c hs]
    congr 1
    by_cases hp : name.isPrefixOf (c :: s) = true
    · obtain ⟨t, ht⟩ := List.isPrefixOf_iff_prefix.1 hp
      rw [← ht, List.drop_left]
      cases t with
      | nil =>
        rw [List.append_nil] at ht
        rw [← ht] at hl'
        have := hw 10 (List.mem_of_getLast? hl')
        exact absurd this (by decide)
      | cons d t => rfl
    · simp only [Bool.not_eq_true] at hp
      rw [hp]
      simp

theorem space_nul (c : Nat) (h : space c = true) : c ≠ 0 := by
  rintro rfl
  exact absurd h (by decide)

theorem aliasLoop_cons (fuel c d : Nat) (s : List Nat) :
    aliasLoop (fuel + 1) (c :: d :: s) =
      if d = 0 then .ok (some [])
      else
        (aliasLoop fuel (((c :: d :: s).dropWhile (fun c => c ≠ 0 && space c)).drop
          (((c :: d :: s).dropWhile (fun c => c ≠ 0 && space c)).takeWhile (fun c => c ≠ 0 && !space c)).length)).bind fun r =>
            .ok (r.map (((c :: d :: s).dropWhile (fun c => c ≠ 0 && space c)).takeWhile (fun c => c ≠ 0 && !space c) :: ·)) := rfl

theorem words_nil' (s : List Nat) (h : words s = []) : ∀ c ∈ s, white c = true := by
  rcases split_word s with ⟨h1, _⟩ | ⟨w, r, _, _, _, _, h5, _⟩
  · intro c hc
    have hs : s = s.takeWhile white ++ s.dropWhile white := (List.takeWhile_append_dropWhile).symm
    rw [h1, List.append_nil] at hs
    rw [hs] at hc
    exact takeWhile_all white s c hc
  · rw [h5] at h; cases h

theorem dropWhile_split {p : Nat → Bool} (a b : List Nat) (ha : ∀ c ∈ a, p c = true) (hb : ∀ c, b.head? = some c → p c = false) :
    (a ++ b).dropWhile p = b := by
  induction a with
  | nil =>
    cases b with
    | nil => rfl
    | cons c b => rw [List.nil_append, List.dropWhile_cons_of_neg (by simp [hb c rfl])]
  | cons c a ih =>
    rw [List.cons_append, List.dropWhile_cons_of_pos (ha c (by simp)), ih (fun x hx => ha x (by simp [hx]))]

/-- The alias loop, from the white space behind a word on, gives the words that are left. -/
theorem aliasLoop_words (tail : List Nat) (q : List Nat) (hq0 : 0 ∉ q) (hlast : ∀ c, q.getLast? = some c → white c = false)
    (hhead : ∀ c, q.head? = some c → white c = true) (fuel : Nat) (hf : q.length < fuel) :
    aliasLoop fuel (q ++ 10 :: 0 :: tail) = .ok (some (words q)) := by
  induction fuel generalizing q with
  | zero => omega
  | succ fuel ih =>
    cases hqq : q with
    | nil => rw [List.nil_append, aliasLoop_cons, if_pos rfl]; rfl
    | cons c q' =>
      have hc : white c = true := hhead c (by rw [hqq]; rfl)
      cases hqq' : q' with
      | nil =>
        have := hlast c (by rw [hqq, hqq']; rfl)
        rw [hc] at this
        cases this
      | cons d q'' =>
        rw [← hqq', ← hqq]
        have hd0 : d ≠ 0 := fun e => hq0 (by rw [hqq, hqq']; simp [e])
        have hshow : q ++ 10 :: 0 :: tail = c :: d :: (q'' ++ 10 :: 0 :: tail) := by rw [hqq, hqq']; rfl
        rw [hshow, aliasLoop_cons, if_neg hd0, ← hshow]
        -- the next word
        rcases split_word q with ⟨h1, h2⟩ | ⟨w, r, h1, h2, h3, h4, h5, h6⟩
        · exfalso
          obtain ⟨z, hz⟩ : ∃ z, q.getLast? = some z := by
            rw [hqq]; exact ⟨_, List.getLast?_eq_some_getLast (by simp)⟩
          have := words_nil' q h2 z (List.mem_of_getLast? hz)
          rw [hlast z hz] at this
          cases this
        · have hq : q = q.takeWhile white ++ (w ++ r) := by rw [← h1]; exact (List.takeWhile_append_dropWhile).symm
          have hs1 : (q ++ 10 :: 0 :: tail).dropWhile (fun c => c ≠ 0 && space c) = w ++ r ++ 10 :: 0 :: tail := by
            have e1 : q ++ 10 :: 0 :: tail = q.takeWhile white ++ (w ++ r ++ 10 :: 0 :: tail) := by
              conv => lhs; rw [hq]
              simp only [List.append_assoc]
            rw [e1]
            apply dropWhile_split
            · intro x hx
              have := takeWhile_all white q x hx
              rw [space_eq, this, Bool.and_true]
              have h0 : x ≠ 0 := fun e => hq0 (e ▸ (List.takeWhile_prefix white).subset hx)
              simpa using h0
            · intro x hx
              cases w with
              | nil => exact absurd rfl h2
              | cons y w =>
                simp at hx
                subst hx
                rw [space_eq, h3 y (by simp), Bool.and_false]
          have hw : (w ++ r ++ 10 :: 0 :: tail).takeWhile (fun c => c ≠ 0 && !space c) = w := by
            rw [List.append_assoc]
            apply takeWhile_split
            · intro x hx
              rw [space_eq, h3 x hx]
              have h0 : x ≠ 0 := fun e => hq0 (by rw [hq, ← e]; simp [hx])
              simpa using h0
            · intro x hx
              have : white x = true := by
                cases r with
                | nil => simp at hx; subst hx; decide
                | cons y r => simp at hx; subst hx; exact h4 y rfl
              rw [space_eq, this]
              simp
          rw [hs1, hw, List.append_assoc, List.drop_left]
          have hlen : r.length < fuel := by
            have := congrArg List.length hq
            have h7 := List.length_pos_iff.2 h2
            simp only [List.length_append] at this
            omega
          rw [ih r (fun h => hq0 (by rw [hq]; simp [h])) ?_ h4 hlen, bind_ok, h5]
          · rfl
          · intro z hz
            apply hlast z
            rw [hq, ← List.append_assoc, List.getLast?_append, hz]
            rfl

/-- The search of a line finds the words behind the first one. -/
theorem findHost_words (name : List Nat) (hne : name ≠ []) (hw : ∀ c ∈ name, white c = false) (l tail : List Nat) (h0 : 0 ∉ l) :
    findHost name ((l ++ 10 :: 0 :: tail).head?.getD 0) (cstr ((l ++ 10 :: 0 :: tail).drop 1)) = true ↔
      name ∈ (if l.head?.any (fun c => !white c) then (words l).tail else words l) := by
  cases l with
  | nil =>
    simp only [List.nil_append, List.head?_cons, List.drop_succ_cons, List.drop_zero, Option.getD_some]
    have : cstr (0 :: tail) = [] := rfl
    rw [this]
    simp [findHost, words, pieces]
  | cons h l =>
    have e1 : (h :: l ++ 10 :: 0 :: tail).drop 1 = (l ++ [10]) ++ 0 :: tail := by simp
    have h0' : 0 ∉ l ++ [10] := by
      simp only [List.mem_append, List.mem_singleton, not_or]
      exact ⟨fun h => h0 (by simp [h]), by decide⟩
    rw [e1, cstr_eq _ tail h0']
    rw [show (h :: l ++ 10 :: 0 :: tail).head?.getD 0 = h from rfl, findHost_eq name hw _ h (Or.inr (by simp)), findName_iff name hne hw, space_eq]
    by_cases hh : white h = true
    · rw [if_pos hh, if_neg (by simp [hh]),
        words_append _ _ (by decide), words_white h l hh]
    · simp only [Bool.not_eq_true] at hh
      rw [if_neg (by simp [hh]), if_pos (by simp [hh])]
      have hd : h :: (l ++ [10]) = (h :: (l ++ [10])).takeWhile (fun c => !white c) ++ (h :: (l ++ [10])).dropWhile (fun c => !white c) :=
        (List.takeWhile_append_dropWhile).symm
      have hr : ∀ d, ((h :: (l ++ [10])).dropWhile (fun c => !white c)).head? = some d → white d = true := by
        intro d hd
        simpa using head_dropWhile' _ _ d hd
      have hword := words_word ((h :: (l ++ [10])).takeWhile (fun c => !white c)) ((h :: (l ++ [10])).dropWhile (fun c => !white c))
        (by rw [List.takeWhile_cons_of_pos (by simp [hh])]; simp)
        (fun d hd => by simpa using takeWhile_all (fun c => !white c) (h :: (l ++ [10])) d hd) hr
      rw [← hd, List.dropWhile_cons_of_pos (by simp [hh])] at hword
      have : words (h :: l) = words (h :: (l ++ [10])) := by
        rw [← List.cons_append, words_append _ _ (by decide)]
      rw [this, hword]
      rfl

theorem address_eq (pton : Pton) (family : Nat) (a : List Nat) :
    address pton family a =
      (if (family = 0 ∨ family = 2) ∧ (pton 2 a).isSome then some (2, (pton 2 a).getD [])
      else if (family = 0 ∨ family = 10) ∧ (pton 10 a).isSome then some (10, (pton 10 a).getD []) else none) := by
  unfold address
  by_cases h2 : family = 0 ∨ family = 2
  · rw [if_pos h2]
    cases hp : pton 2 a with
    | some x => simp [h2]
    | none =>
      by_cases h10 : family = 0 ∨ family = 10
      · rw [if_pos h10]
        cases hq : pton 10 a with
        | some x => simp [h10]
        | none => simp
      · rw [if_neg h10]; simp [h10]
  · rw [if_neg h2]
    by_cases h10 : family = 0 ∨ family = 10
    · rw [if_pos h10]
      cases hq : pton 10 a with
      | some x => simp [h2, h10]
      | none => simp [h2]
    · rw [if_neg h10]; simp [h10, h2]

theorem nameLine_good (pton : Pton) (fuel : Nat) (hf : 127 < fuel) (name : List Nat) (hne : name ≠ []) (hw : ∀ c ∈ name, white c = false)
    (family : Nat) (buf line : List Nat) (hg : GoodLine line) :
    nameLine pton fuel name family (fill buf (line ++ [10])) = .ok (some (answer pton name family line)) := by
  obtain ⟨_, h0, hlen, hg⟩ := hg
  obtain ⟨tail, htail⟩ := fill_eq buf line h0
  rw [htail]
  have hfields : fields line = words (line.takeWhile (· ≠ 35)) := rfl
  have hle : (line.takeWhile (· ≠ 35)).length ≤ line.length := (List.takeWhile_prefix _).length_le
  have hhl : ∀ c, (line.takeWhile (· ≠ 35)).head? = some c → line.head? = some c := by
    intro c hc
    cases line with
    | nil => simp at hc
    | cons d line =>
      by_cases hd : d = 35
      · rw [List.takeWhile_cons_of_neg (by simp [hd])] at hc; simp at hc
      · rw [List.takeWhile_cons_of_pos (by simp [hd])] at hc
        simpa using hc
  have h0' : 0 ∉ line.takeWhile (· ≠ 35) := fun h => h0 ((List.takeWhile_prefix _).subset h)
  generalize hl : line.takeWhile (· ≠ 35) = l at *
  unfold nameLine answer
  rcases hg with hg | ⟨hh, h2, hlast⟩
  · rw [if_neg]
    · rw [hg]
    · rw [findHost_words name hne hw l tail h0', ← hfields, hg]
      simp
  · rw [hfields] at h2 ⊢
    obtain ⟨a, official, as, hwords⟩ : ∃ a o as, words l = a :: o :: as := by
      match hq : words l, h2 with
      | a :: o :: as, _ => exact ⟨a, o, as, rfl⟩
    rw [hwords]
    dsimp only
    have hlne : l ≠ [] := by rintro rfl; simp [words, pieces] at hwords
    have hfirst : ∃ c, l.head? = some c ∧ white c = false := by
      cases hq : l with
      | nil => exact absurd hq hlne
      | cons c l' => exact ⟨c, rfl, hh c (hhl c (by rw [hq]; rfl))⟩
    have hfind := findHost_words name hne hw l tail h0'
    rw [if_pos (by obtain ⟨c, hc1, hc2⟩ := hfirst; simp [hc1, hc2]), hwords, List.tail_cons, List.mem_cons] at hfind
    by_cases hm : name = official ∨ name ∈ as
    · rw [if_pos (hfind.2 hm), if_pos hm]
      -- the anatomy of the line
      have hd0 : l.dropWhile white = l := by
        obtain ⟨c, hc1, hc2⟩ := hfirst
        cases hq : l with
        | nil => exact absurd hq hlne
        | cons d l' =>
          rw [hq] at hc1
          simp at hc1
          subst hc1
          rw [List.dropWhile_cons_of_neg (by simp [hc2])]
      rcases split_word l with ⟨h1, _⟩ | ⟨w, q1, k1, k2, k3, k4, k5, _⟩
      · rw [hd0] at h1; exact absurd h1 hlne
      rw [hd0] at k1
      rw [hwords] at k5
      obtain ⟨hwa, k6⟩ := List.cons.inj k5
      subst hwa
      rcases split_word q1 with ⟨h1, h2⟩ | ⟨w2, q, m1, m2, m3, m4, m5, _⟩
      · rw [h2] at k6; cases k6
      rw [m5] at k6
      obtain ⟨hwo, k7⟩ := List.cons.inj k6
      subst hwo
      have hq1 : q1 = q1.takeWhile white ++ (official ++ q) := by rw [← m1]; exact (List.takeWhile_append_dropWhile).symm
      obtain ⟨g, gap, hgap⟩ : ∃ g gap, q1.takeWhile white = g :: gap := by
        cases hx : q1 with
        | nil => rw [hx] at m1; simp at m1; exact absurd m1.1 m2
        | cons g q' => rw [List.takeWhile_cons_of_pos (k4 g (by rw [hx]; rfl))]; exact ⟨_, _, rfl⟩
      have hgw : ∀ c ∈ g :: gap, white c = true := by rw [← hgap]; exact takeWhile_all white q1
      have hL : l ++ 10 :: 0 :: tail = a ++ (g :: (gap ++ (official ++ (q ++ 10 :: 0 :: tail)))) := by
        rw [k1, hq1, hgap]; simp
      have h0l : ∀ c ∈ l, c ≠ 0 := fun c hc e => h0' (e ▸ hc)
      have htext : (l ++ 10 :: 0 :: tail).takeWhile (fun c => !space c) = a := by
        rw [hL, space_eq]
        apply takeWhile_split
        · intro c hc; simp [k3 c hc]
        · intro c hc; simp at hc; subst hc; simp [hgw g (by simp)]
      have hdrop : (l ++ 10 :: 0 :: tail).drop (a.length + 1) = gap ++ (official ++ (q ++ 10 :: 0 :: tail)) := by
        rw [hL, ← List.drop_drop, List.drop_left]; rfl
      have hr1 : (gap ++ (official ++ (q ++ 10 :: 0 :: tail))).dropWhile (fun c => c ≠ 0 && space c) = official ++ (q ++ 10 :: 0 :: tail) := by
        apply dropWhile_split
        · intro c hc
          have h1 := hgw c (by simp [hc])
          rw [space_eq, h1, Bool.and_true]
          simpa using h0l c (by rw [k1, hq1, hgap]; simp [hc])
        · intro c hc
          cases hx : official with
          | nil => exact absurd hx m2
          | cons y o =>
            rw [hx] at hc
            simp at hc
            subst hc
            rw [space_eq, m3 y (by rw [hx]; simp), Bool.and_false]
      have hoff : (official ++ (q ++ 10 :: 0 :: tail)).takeWhile (fun c => c ≠ 0 && !space c) = official := by
        apply takeWhile_split
        · intro c hc
          rw [space_eq, m3 c hc]
          simpa using h0l c (by rw [k1, hq1]; simp [hc])
        · intro c hc
          have : white c = true := by
            cases hx : q with
            | nil => rw [hx] at hc; simp at hc; subst hc; decide
            | cons y q' => rw [hx] at hc; simp at hc; subst hc; exact m4 y (by rw [hx]; rfl)
          rw [space_eq, this]
          simp
      rw [htext, address_eq, hdrop, hr1, hoff, List.drop_left]
      have hal := aliasLoop_words tail q (fun h => h0' (by rw [k1, hq1]; simp [h])) (by
          intro z hz
          apply hlast z
          rw [k1, hq1, ← List.append_assoc, ← List.append_assoc, List.getLast?_append, hz]
          rfl) m4 fuel (by
          have := congrArg List.length k1
          rw [hq1] at this
          simp only [List.length_append] at this
          omega)
      by_cases c1 : (family = 0 ∨ family = 2) ∧ (pton 2 a).isSome = true
      · rw [if_pos c1, if_pos c1]
        dsimp only
        rw [hal, bind_ok, k7]
        rfl
      · rw [if_neg c1, if_neg c1]
        by_cases c2 : (family = 0 ∨ family = 10) ∧ (pton 10 a).isSome = true
        · rw [if_pos c2, if_pos c2]
          dsimp only
          rw [hal, bind_ok, k7]
          rfl
        · rw [if_neg c2, if_neg c2]
    · rw [if_neg (fun h => hm (hfind.1 h)), if_neg hm]

/-- **C85 (a name in /etc/hosts).** For a file of well-formed lines and a name that is a word, the answer has one address for each line that
names it, in the order of the file, each with the official name of its line; the aliases are those of all these lines, and the
canonical name is that of the last one. This holds whatever the line buffer holds in the beginning. Missing: lines with space before the
comment or the end of the line (`comment_violated`, `trailing_violated`), the last line without a newline (`last_line_violated`), longer lines. -/
theorem lookupName_partial (pton : Pton) (fuel : Nat) (hf : 127 < fuel) (stale : List Nat) (ls : List (List Nat)) (hg : ∀ l ∈ ls, GoodLine l)
    (name : List Nat) (hne : name ≠ []) (hw : ∀ c ∈ name, white c = false) (family : Nat) :
    lookupName pton fuel stale (Db.file ls) name family =
      .ok (some ⟨(ls.filterMap (answer pton name family)).map (·.1), (ls.filterMap (answer pton name family)).flatMap (·.2),
        (((ls.filterMap (answer pton name family)).getLast?).map (·.1.name)).getD []⟩) := by
  unfold lookupName
  rw [Db.reads_file 127 ls (fun l hl => ⟨(hg l hl).1, (hg l hl).2.2.1⟩) _ (Nat.le_refl _)]
  suffices h : ∀ buf res, nameLines pton fuel name family buf (ls.map (fun l => l ++ [10])) res =
      .ok (some ⟨res.addrs ++ (ls.filterMap (answer pton name family)).map (·.1), res.aliases ++ (ls.filterMap (answer pton name family)).flatMap (·.2),
        (((ls.filterMap (answer pton name family)).getLast?).map (·.1.name)).getD res.canon⟩) from by
    rw [h stale ⟨[], [], []⟩]; rfl
  induction ls with
  | nil => intro buf res; simp [nameLines]
  | cons l ls ih =>
    intro buf res
    rw [List.map_cons, nameLines, nameLine_good pton fuel hf name hne hw family buf l (hg l (by simp)), bind_ok]
    cases ha : answer pton name family l with
    | none =>
      dsimp only
      rw [ih (fun x hx => hg x (by simp [hx])), List.filterMap_cons_none ha]
    | some x =>
      obtain ⟨a, as⟩ := x
      dsimp only
      rw [ih (fun x hx => hg x (by simp [hx])), List.filterMap_cons_some ha]
      congr 3
      · simp
      · simp
      · cases hq : (ls.filterMap (answer pton name family)) with
        | nil => rfl
        | cons y ys =>
          rw [List.getLast?_cons_cons, List.getLast?_eq_some_getLast (by simp : y :: ys ≠ [])]
          rfl

/-- What lookup_addr_hosts should give: the official name of the first line for this address, if there is room for it. -/
def hostOf (text : List Nat) (size : Nat) (lines : List (List Nat)) : Host :=
  match lines.find? (fun l => (fields l).head? == some text) with
  | none => .missing
  | some l => if ((fields l)[1]?.getD []).length < size then .name ((fields l)[1]?.getD []) else .overflow

theorem anatomy (l a official : List Nat) (as : List (List Nat)) (hh : ∀ c, l.head? = some c → white c = false)
    (hwords : words l = a :: official :: as) :
    ∃ g gap q, l = a ++ g :: (gap ++ (official ++ q)) ∧ (∀ c ∈ a, white c = false) ∧ a ≠ [] ∧ (∀ c ∈ g :: gap, white c = true) ∧
      (∀ c ∈ official, white c = false) ∧ official ≠ [] ∧ (∀ c, q.head? = some c → white c = true) := by
  have hlne : l ≠ [] := by rintro rfl; simp [words, pieces] at hwords
  have hd0 : l.dropWhile white = l := by
    cases hq : l with
    | nil => exact absurd hq hlne
    | cons d l' => rw [List.dropWhile_cons_of_neg (by simp [hh d (by rw [hq]; rfl)])]
  rcases split_word l with ⟨h1, _⟩ | ⟨w, q1, k1, k2, k3, k4, k5, _⟩
  · rw [hd0] at h1; exact absurd h1 hlne
  rw [hd0] at k1
  rw [hwords] at k5
  obtain ⟨hwa, k6⟩ := List.cons.inj k5
  subst hwa
  rcases split_word q1 with ⟨h1, h2⟩ | ⟨w2, q, m1, m2, m3, m4, m5, _⟩
  · rw [h2] at k6; cases k6
  rw [m5] at k6
  obtain ⟨hwo, k7⟩ := List.cons.inj k6
  subst hwo
  have hq1 : q1 = q1.takeWhile white ++ (official ++ q) := by rw [← m1]; exact (List.takeWhile_append_dropWhile).symm
  obtain ⟨g, gap, hgap⟩ : ∃ g gap, q1.takeWhile white = g :: gap := by
    cases hx : q1 with
    | nil => rw [hx] at m1; simp at m1; exact absurd m1.1 m2
    | cons g q' => rw [List.takeWhile_cons_of_pos (k4 g (by rw [hx]; rfl))]; exact ⟨_, _, rfl⟩
  refine ⟨g, gap, q, ?_, k3, k2, ?_, m3, m2, m4⟩
  · rw [k1]
    conv => lhs; rw [hq1, hgap]
    simp
  · rw [← hgap]; exact takeWhile_all white q1

/-- **C85 (an address in /etc/hosts).** For a file of well-formed lines and the text of an address: if no line has a longer first word that
begins with this text, the answer is the official name of the first line with this address, provided that there is room for it; otherwise an error. Missing:
addresses that begin with the text (`prefix_violated`), and what is missing in `lookupName_partial`. -/
theorem lookupAddr_partial (stale : List Nat) (ls : List (List Nat)) (hg : ∀ l ∈ ls, GoodLine l) (text : List Nat) (hne : text ≠ [])
    (hw : ∀ c ∈ text, white c = false) (hpre : ∀ l ∈ ls, ∀ a, (fields l).head? = some a → text <+: a → a = text) (size : Nat) :
    lookupAddr stale (Db.file ls) text size = .ok (hostOf text size ls) := by
  unfold lookupAddr
  rw [Db.reads_file 127 ls (fun l hl => ⟨(hg l hl).1, (hg l hl).2.2.1⟩) _ (Nat.le_refl _)]
  induction ls generalizing stale with
  | nil => rfl
  | cons line ls ih =>
    rw [List.map_cons, addrLines]
    obtain ⟨_, h0, hlen, hgl⟩ := hg line (by simp)
    obtain ⟨tail, htail⟩ := fill_eq stale line h0
    dsimp only
    have ih := ih (stale := fill stale (line ++ [10])) (fun x hx => hg x (by simp [hx])) (fun x hx => hpre x (by simp [hx]))
    have hfields : fields line = words (line.takeWhile (· ≠ 35)) := rfl
    have hhl : ∀ c, (line.takeWhile (· ≠ 35)).head? = some c → line.head? = some c := by
      intro c hc
      cases line with
      | nil => simp at hc
      | cons d line =>
        by_cases hd : d = 35
        · rw [List.takeWhile_cons_of_neg (by simp [hd])] at hc; simp at hc
        · rw [List.takeWhile_cons_of_pos (by simp [hd])] at hc
          simpa using hc
    have h0' : 0 ∉ line.takeWhile (· ≠ 35) ++ [10] := by
      simp only [List.mem_append, List.mem_singleton, not_or]
      exact ⟨fun h => h0 ((List.takeWhile_prefix _).subset h), by decide⟩
    have hcs : cstr (fill stale (line ++ [10])) = line.takeWhile (· ≠ 35) ++ [10] := by
      rw [htail, show line.takeWhile (· ≠ 35) ++ 10 :: 0 :: tail = (line.takeWhile (· ≠ 35) ++ [10]) ++ 0 :: tail from by simp,
        cstr_eq _ tail h0']
    have hskip : (fields line).head? ≠ some text → hostOf text size (line :: ls) = hostOf text size ls := by
      intro hx
      unfold hostOf
      rw [List.find?_cons_of_neg (by simpa using hx)]
    rw [hcs]
    rcases hgl with hgl | ⟨hh, h2, hlast⟩
    · rw [if_neg, ih, hskip (by rw [hgl]; simp)]
      intro hp
      obtain ⟨t, ht⟩ := List.isPrefixOf_iff_prefix.1 hp
      cases htx : text with
      | nil => exact absurd htx hne
      | cons c text' =>
        have hc : c ∈ line.takeWhile (· ≠ 35) ++ [10] := by rw [← ht, htx]; simp
        have h1 : white c = true := by
          rcases List.mem_append.1 hc with hc | hc
          · exact words_nil' _ (by rw [← hfields]; exact hgl) c hc
          · simp at hc; subst hc; decide
        rw [hw c (by rw [htx]; simp)] at h1
        cases h1
    · rw [hfields] at h2
      obtain ⟨a, official, as, hwords⟩ : ∃ a o as, words (line.takeWhile (· ≠ 35)) = a :: o :: as := by
        match hq : words (line.takeWhile (· ≠ 35)), h2 with
        | a :: o :: as, _ => exact ⟨a, o, as, rfl⟩
      obtain ⟨g, gap, q, hl, ha, hane, hgw, ho, hone, hq⟩ := anatomy _ a official as (fun c hc => hh c (hhl c hc)) hwords
      have hpw := prefix_word text a (g :: (gap ++ (official ++ q)) ++ [10]) hw (by
        intro c hc; simp at hc; subst hc; exact hgw g (by simp))
      have hpreq : text.isPrefixOf (line.takeWhile (· ≠ 35) ++ [10]) = true ↔ a = text := by
        rw [hl, List.append_assoc, hpw]
        constructor
        · intro h
          exact hpre line (by simp) a (by rw [hfields, hwords]; rfl) h
        · rintro rfl; exact List.prefix_refl _
      by_cases hat : a = text
      · rw [if_pos (hpreq.2 hat)]
        have hdrop : (fill stale (line ++ [10])).drop (text.length + 1) = gap ++ (official ++ (q ++ 10 :: 0 :: tail)) := by
          rw [htail, hl, ← hat, List.append_assoc, ← List.drop_drop, List.drop_left]
          simp
        have hr1 : (gap ++ (official ++ (q ++ 10 :: 0 :: tail))).dropWhile space = official ++ (q ++ 10 :: 0 :: tail) := by
          rw [space_eq]
          apply dropWhile_split
          · intro c hc; exact hgw c (by simp [hc])
          · intro c hc
            cases hx : official with
            | nil => exact absurd hx hone
            | cons y o => rw [hx] at hc; simp at hc; subst hc; exact ho y (by rw [hx]; simp)
        have hoff : (official ++ (q ++ 10 :: 0 :: tail)).takeWhile (fun c => !space c) = official := by
          rw [space_eq]
          apply takeWhile_split
          · intro c hc; simp [ho c hc]
          · intro c hc
            have : white c = true := by
              cases hx : q with
              | nil => rw [hx] at hc; simp at hc; subst hc; decide
              | cons y q' => rw [hx] at hc; simp at hc; subst hc; exact hq y (by rw [hx]; rfl)
            simp [this]
        have hany : (official ++ (q ++ 10 :: 0 :: tail)).any space = true := by
          rw [List.any_eq_true]
          exact ⟨10, by simp, by decide⟩
        rw [hdrop, hr1, if_pos hany, hoff]
        unfold hostOf
        rw [List.find?_cons_of_pos (by rw [hfields, hwords, hat]; simp)]
        have hget : (fields line)[1]?.getD [] = official := by rw [hfields, hwords]; rfl
        dsimp only
        rw [hget]
        by_cases hs : official.length < size
        · rw [if_pos hs, if_neg (by omega)]
        · rw [if_neg hs, if_pos (by omega)]
      · rw [if_neg (fun h => hat (hpreq.1 h)), ih, hskip (by rw [hfields, hwords]; simpa using hat)]

/-! ## Examples and counterexamples -/

/-- inet_pton for the examples: every text of seven or more characters is an IPv4 address, with its length as the last byte. -/
def pton4 : Pton := fun f s => if f = 2 ∧ 7 ≤ s.length then some [10, 0, 0, s.length] else none

/-- "1.2.3.4 h a b#x", "# c", "10.0.0.1<tab>k", "1.2.3.10 a" -/
def sample : List (List Nat) :=
  [[49, 46, 50, 46, 51, 46, 52, 32, 104, 32, 97, 32, 98, 35, 120], [35, 32, 99], [49, 48, 46, 48, 46, 48, 46, 49, 9, 107],
   [49, 46, 50, 46, 51, 46, 49, 48, 32, 97]]

theorem sample_good : ∀ l ∈ sample, GoodLine l := by
  intro l hl
  simp only [sample, List.mem_cons, List.not_mem_nil, or_false] at hl
  rcases hl with rfl | rfl | rfl | rfl
  · exact ⟨by decide, by decide, by decide, Or.inr ⟨by decide, by decide, by decide⟩⟩
  · exact ⟨by decide, by decide, by decide, Or.inl (by decide)⟩
  · exact ⟨by decide, by decide, by decide, Or.inr ⟨by decide, by decide, by decide⟩⟩
  · exact ⟨by decide, by decide, by decide, Or.inr ⟨by decide, by decide, by decide⟩⟩

/-- The name "a" has two addresses; the aliases are those of the lines, and the last name is canonical. -/
example (stale : List Nat) : lookupName pton4 128 stale (Db.file sample) [97] 0 =
    .ok (some ⟨[⟨2, [10, 0, 0, 7], [104]⟩, ⟨2, [10, 0, 0, 8], [97]⟩], [[97], [98]], [97]⟩) := by
  rw [lookupName_partial pton4 128 (by decide) stale sample sample_good [97] (by decide) (by decide) 0]
  decide +kernel

/-- The address 10.0.0.1 is "k". -/
example (stale : List Nat) : lookupAddr stale (Db.file sample) [49, 48, 46, 48, 46, 48, 46, 49] 2 = .ok (.name [107]) := by
  rw [lookupAddr_partial stale sample sample_good _ (by decide) (by decide) ?_ 2]
  · decide +kernel
  · intro l hl
    simp only [sample, List.mem_cons, List.not_mem_nil, or_false] at hl
    rcases hl with rfl | rfl | rfl | rfl
    · rw [show (fields [49, 46, 50, 46, 51, 46, 52, 32, 104, 32, 97, 32, 98, 35, 120]).head? = some [49, 46, 50, 46, 51, 46, 52] from by decide]
      rintro a ⟨⟩; decide
    · rw [show (fields [35, 32, 99]).head? = none from by decide]
      rintro a ⟨⟩
    · rw [show (fields [49, 48, 46, 48, 46, 48, 46, 49, 9, 107]).head? = some [49, 48, 46, 48, 46, 48, 46, 49] from by decide]
      rintro a ⟨⟩; decide
    · rw [show (fields [49, 46, 50, 46, 51, 46, 49, 48, 32, 97]).head? = some [49, 46, 50, 46, 51, 46, 49, 48] from by decide]
      rintro a ⟨⟩; decide

theorem aliasLoop_stuck (d : Nat) (hd : d ≠ 0) (s : List Nat) (fuel : Nat) : aliasLoop fuel (0 :: d :: s) = .ok none := by
  induction fuel with
  | zero => rfl
  | succ fuel ih =>
    rw [aliasLoop_cons, if_neg hd]
    have h1 : (0 :: d :: s).dropWhile (fun c => c ≠ 0 && space c) = 0 :: d :: s := rfl
    have h2 : (0 :: d :: s).takeWhile (fun c => c ≠ 0 && !space c) = [] := rfl
    rw [h1, h2]
    show ((aliasLoop fuel (0 :: d :: s)).bind fun r => _) = _
    rw [ih]
    rfl

/-- **C85 fails**: with the line "1.2.3.4 h # c" in the file, the lookup of "h" never ends: it adds empty aliases without bound. -/
theorem comment_violated (pton : Pton) (addr : List Nat) (hp : pton 2 [49, 46, 50, 46, 51, 46, 52] = some addr) (stale : List Nat) (fuel : Nat) :
    lookupName pton fuel stale (Db.file [[49, 46, 50, 46, 51, 46, 52, 32, 104, 32, 35, 32, 99]]) [104] 0 = .ok none := by
  have hr : Db.reads 127 (Db.file [[49, 46, 50, 46, 51, 46, 52, 32, 104, 32, 35, 32, 99]]).length
      (Db.file [[49, 46, 50, 46, 51, 46, 52, 32, 104, 32, 35, 32, 99]]) = [[49, 46, 50, 46, 51, 46, 52, 32, 104, 32, 35, 32, 99, 10]] := by
    decide +kernel
  unfold lookupName
  rw [hr, nameLines]
  have hfill : fill stale [49, 46, 50, 46, 51, 46, 52, 32, 104, 32, 35, 32, 99, 10] =
      [49, 46, 50, 46, 51, 46, 52, 32, 104, 32, 10, 0, 99, 10] ++ 0 :: stale.drop 15 := rfl
  rw [hfill]
  have hline : nameLine pton fuel [104] 0 ([49, 46, 50, 46, 51, 46, 52, 32, 104, 32, 10, 0, 99, 10] ++ 0 :: stale.drop 15) = .ok none := by
    unfold nameLine
    have hfind : findHost [104] (([49, 46, 50, 46, 51, 46, 52, 32, 104, 32, 10, 0, 99, 10] ++ 0 :: stale.drop 15).head?.getD 0)
        (cstr (([49, 46, 50, 46, 51, 46, 52, 32, 104, 32, 10, 0, 99, 10] ++ 0 :: stale.drop 15).drop 1)) = true := rfl
    rw [if_pos hfind]
    have haddr : address pton 0 [49, 46, 50, 46, 51, 46, 52] = some (2, addr) := by
      unfold address
      rw [if_pos (Or.inl rfl), hp]
    have hal : aliasLoop fuel (32 :: 10 :: 0 :: 99 :: 10 :: 0 :: stale.drop 15) = .ok none := by
      cases fuel with
      | zero => rfl
      | succ fuel =>
        rw [aliasLoop_cons, if_neg (by decide)]
        show ((aliasLoop fuel (0 :: 99 :: 10 :: 0 :: stale.drop 15)).bind fun r => _) = _
        rw [aliasLoop_stuck 99 (by decide)]
        rfl
    show (match address pton 0 [49, 46, 50, 46, 51, 46, 52] with
      | none => _
      | some (f, a) => (aliasLoop fuel (32 :: 10 :: 0 :: 99 :: 10 :: 0 :: stale.drop 15)).bind fun r => _) = _
    rw [haddr]
    dsimp only
    rw [hal]
    rfl
  rw [hline]
  rfl

/-- **C85 fails**: with space at the end of a line an empty alias is given; and the loop does not end, when the byte behind the terminator is not zero. -/
theorem trailing_violated :
    lookupName pton4 128 (List.replicate 128 0) (Db.file [[49, 46, 50, 46, 51, 46, 52, 32, 104, 32]]) [104] 0 =
      .ok (some ⟨[⟨2, [10, 0, 0, 7], [104]⟩], [[]], [104]⟩) ∧
    lookupName pton4 128 (List.replicate 128 1) (Db.file [[49, 46, 50, 46, 51, 46, 52, 32, 104, 32]]) [104] 0 = .ok none := by
  decide +kernel

/-- **C85 fails**: the last line "1.2.3.4 h" is not seen, when it does not end in a newline. -/
theorem last_line_violated : lookupName pton4 128 (List.replicate 128 0) [49, 46, 50, 46, 51, 46, 52, 32, 104] [104] 0 = .ok (some ⟨[], [], []⟩) := by
  decide +kernel

/-- **C85 fails**: with the line "1.2.3.45 k" in the file, the address 1.2.3.4 has the name "k"; with "1.2.3.100 k", the
address 1.2.3.1 has the name "0". -/
theorem prefix_violated :
    lookupAddr (List.replicate 128 0) (Db.file [[49, 46, 50, 46, 51, 46, 52, 53, 32, 107]]) [49, 46, 50, 46, 51, 46, 52] 100 = .ok (.name [107]) ∧
    lookupAddr (List.replicate 128 0) (Db.file [[49, 46, 50, 46, 51, 46, 49, 48, 48, 32, 107]]) [49, 46, 50, 46, 51, 46, 49] 100 = .ok (.name [48]) ∧
    hostOf [49, 46, 50, 46, 51, 46, 52] 100 [[49, 46, 50, 46, 51, 46, 52, 53, 32, 107]] = .missing := by
  decide +kernel

end Mlibc.Hosts
