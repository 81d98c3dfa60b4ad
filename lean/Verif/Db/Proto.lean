import Verif.Base
import Verif.Db.Text
import Verif.Db.Words

/-
The protocols database: getprotobyname, getprotobynumber, getprotoent, setprotoent, endprotoent (options/posix/generic/netdb.cpp). Property C87.
-/
namespace Mlibc.Proto
open Mlibc

/-! ## The code -/

/-- `struct protoent`. -/
structure Entry where
  name : List Nat
  number : Nat
  aliases : List (List Nat)
  deriving DecidableEq, Repr

/-- The globals, netdb.cpp L21-23: is `protoFd` set, `protoFdOffset`, and is `protoFdStayopen` not 0? -/
structure St where
  fd : Bool
  off : Nat
  stay : Bool
  deriving DecidableEq, Repr

/-- netdb.cpp L21-23: the initial values. -/
def St.init : St := ⟨false, 0, false⟩

/-- The separators, " \t". netdb.cpp L98, L118 -/
def blank (c : Nat) : Bool := c == 32 || c == 9

/-- What `readLine` gives: `unfinished` when the loop has not ended with this fuel. -/
inductive Line where
  | unfinished
  | eof
  | line (s : List Nat) (off : Nat)
  deriving DecidableEq, Repr

/-- netdb.cpp L63-90 `readLine`. The file is read at the same offset in every pass of the loop, 256 bytes at most. `acc` is `line`. A Read that gives
fewer bytes than there are is not modelled. -/
def readLine (file : List Nat) (off : Nat) : Nat → List Nat → Line
  | 0, _ => .unfinished
  | fuel + 1, acc =>
    let buf := (file.drop off).take 256
    if buf = [] then .eof
    else if 10 ∈ buf then
      let l := acc ++ buf.takeWhile (· ≠ 10)
      .line l (off + l.length + 1)
    else readLine file off fuel (acc ++ buf)

/-- netdb.cpp L143-158: the aliases. -/
def aliasLoop : Nat → List Nat → List (List Nat)
  | 0, _ => []
  | _ + 1, [] => []
  | fuel + 1, c :: s =>
    if blank c then aliasLoop fuel s
    else (c :: s).takeWhile (fun c => !blank c) :: aliasLoop fuel ((c :: s).dropWhile (fun c => !blank c))

/-- netdb.cpp L96-158: the entry of a line; `none`: `continue`. -/
def parseLine (line : List Nat) : Res (Option Entry) :=
  let v := line.takeWhile (· ≠ 35)
  let v := v.dropWhile blank
  if v = [] then .ok none
  else
    let name := v.takeWhile (fun c => !blank c)
    let v := v.dropWhile (fun c => !blank c)
    if v = [] then .ok none
    else
      let v := v.dropWhile blank
      if v = [] then .ok none
      else
        let number := v.takeWhile (fun c => !blank c)
        let v := v.dropWhile (fun c => !blank c)
        if v = [] then .ok none
        else
          (Db.toNumber number 0).bind fun
            | none => .ok none
            | some n =>
              let v := v.dropWhile blank
              if v = [] then .ok none else .ok (some ⟨name, n, aliasLoop (v.length + 1) v⟩)

/-- netdb.cpp L56-175 `findProto`: the offset afterwards, and the entry. `none`: not finished. -/
def findProto (file : List Nat) (want : Entry → Bool) : Nat → Nat → Res (Option (Nat × Option Entry))
  | 0, _ => .ok none
  | fuel + 1, off =>
    match readLine file off (fuel + 1) [] with
    | .unfinished => .ok none
    | .eof => .ok (some (off, none))
    | .line l off' =>
      (parseLine l).bind fun
        | none => findProto file want fuel off'
        | some e => if want e then .ok (some (off', some e)) else findProto file want fuel off'

/-- The calls. -/
inductive Op where
  | byName (name : List Nat)
  | byNumber (n : Int)
  | next
  | set (stay : Bool)
  | close
  deriving DecidableEq, Repr

/-- netdb.cpp L26-39 `openProtoFd`, when the file can be opened. -/
def openFd (st : St) (stay : Bool) : St :=
  if st.fd then (if stay then { st with stay := true } else st) else { st with fd := true, stay := stay }

/-- netdb.cpp L194-199 `endprotoent`. -/
def endprotoent (st : St) : St := { st with fd := false }

/-- netdb.cpp L528-586: what the three functions share. `rewind`: is there a Seek to 0? -/
def lookup (file : List Nat) (fuel : Nat) (st : St) (rewind : Bool) (want : Entry → Bool) : Res (Option (St × Option Entry)) :=
  let st := if st.fd then st else openFd st false
  let st := if rewind then { st with off := 0 } else st
  (findProto file want fuel st.off).bind fun
    | none => .ok none
    | some (off, e) =>
      let st := { st with off := off }
      .ok (some (if st.stay then st else endprotoent st, e))

/-- One call. netdb.cpp L528-586, L194-199, L726-728 -/
def step (file : List Nat) (fuel : Nat) (st : St) : Op → Res (Option (St × Option Entry))
  | .byName n => lookup file fuel st true (fun e => n == e.name)
  | .byNumber n => lookup file fuel st true (fun e => n == e.number)
  | .next => lookup file fuel st false (fun _ => true)
  | .set stay => .ok (some (openFd st stay, none))
  | .close => .ok (some (endprotoent st, none))

/-- A history of calls: the state afterwards and the answers. -/
def run (file : List Nat) (fuel : Nat) : St → List Op → Res (Option (St × List (Option Entry)))
  | st, [] => .ok (some (st, []))
  | st, op :: ops =>
    (step file fuel st op).bind fun
      | none => .ok none
      | some (st', r) => (run file fuel st' ops).bind fun
        | none => .ok none
        | some (st'', rs) => .ok (some (st'', r :: rs))

/-! ## Specification -/

open Words

/-- The fields of a line; behind # is a comment. -/
def fields (line : List Nat) : List (List Nat) := words (line.takeWhile (· ≠ 35))

/-- The entry on a line: name, number, aliases. -/
def entry (line : List Nat) : Option Entry :=
  match fields line with
  | n :: v :: as => some ⟨n, Db.value v, as⟩
  | _ => none

/-- A line of a well-formed file: at most 255 bytes, blanks as the only white space; without fields, or with a name, a number that fits an int, and at
least one alias. -/
def GoodLine (line : List Nat) : Prop :=
  10 ∉ line ∧ line.length < 256 ∧ (∀ c ∈ line, white c = true → c = 32 ∨ c = 9) ∧
    (fields line = [] ∨ ∃ n v a as, fields line = n :: v :: a :: as ∧ (∀ c ∈ v, 48 ≤ c ∧ c ≤ 57) ∧ Db.value v ≤ 2147483647)

/-- The answer and the entries still to be read: the first entry that is wanted and the ones after it. -/
def search (want : Entry → Bool) (es : List Entry) : Option Entry × List Entry :=
  match es.dropWhile (fun e => !want e) with
  | [] => (none, [])
  | e :: es => (some e, es)

/-- The answers to a history of calls for a database `es`, of which `rest` is still to be read. -/
def answers (es : List Entry) : List Entry → List Op → List (Option Entry)
  | _, [] => []
  | rest, op :: ops =>
    match op with
    | .byName n => (search (fun e => e.name == n) es).1 :: answers es (search (fun e => e.name == n) es).2 ops
    | .byNumber n => (search (fun e => (e.number : Int) == n) es).1 :: answers es (search (fun e => (e.number : Int) == n) es).2 ops
    | .next => rest.head? :: answers es rest.tail ops
    | .set _ => none :: answers es es ops
    | .close => none :: answers es es ops

/-- Where the reading of the database is, for the histories of `history_partial`. -/
inductive Pos where
  | start
  | moved
  | rewound
  deriving DecidableEq

/-- The histories in which getprotoent does not rely on a rewinding: it is not called after setprotoent or endprotoent, when entries had been read before,
unless getprotobyname or getprotobynumber comes in between. -/
def NoRewind : Pos → List Op → Prop
  | _, [] => True
  | p, op :: ops =>
    match op with
    | .byName _ => NoRewind .moved ops
    | .byNumber _ => NoRewind .moved ops
    | .next => p ≠ .rewound ∧ NoRewind .moved ops
    | .set _ => NoRewind (if p = .start then .start else .rewound) ops
    | .close => NoRewind (if p = .start then .start else .rewound) ops

/-! ## Proofs -/

theorem takeWhile_congr {p q : Nat → Bool} (s : List Nat) (h : ∀ c ∈ s, p c = q c) : s.takeWhile p = s.takeWhile q := by
  induction s with
  | nil => rfl
  | cons c s ih =>
    have hc := h c (by simp)
    rw [List.takeWhile_cons, List.takeWhile_cons, hc, ih (fun x hx => h x (by simp [hx]))]

theorem dropWhile_congr {p q : Nat → Bool} (s : List Nat) (h : ∀ c ∈ s, p c = q c) : s.dropWhile p = s.dropWhile q := by
  induction s with
  | nil => rfl
  | cons c s ih =>
    have hc := h c (by simp)
    rw [List.dropWhile_cons, List.dropWhile_cons, hc, ih (fun x hx => h x (by simp [hx]))]

theorem mem_dropWhile {p : Nat → Bool} (s : List Nat) (c : Nat) (h : c ∈ s.dropWhile p) : c ∈ s :=
  (List.dropWhile_sublist p).subset h

/-- The blanks are the white space of these lines. -/
def Plain (s : List Nat) : Prop := ∀ c ∈ s, blank c = white c

theorem Plain.drop {p : Nat → Bool} {s : List Nat} (h : Plain s) : Plain (s.dropWhile p) := fun c hc => h c (mem_dropWhile s c hc)

theorem Plain.dw {s : List Nat} (h : Plain s) : s.dropWhile blank = s.dropWhile white := dropWhile_congr s h

theorem Plain.tw {s : List Nat} (h : Plain s) : s.takeWhile (fun c => !blank c) = s.takeWhile (fun c => !white c) :=
  takeWhile_congr s (fun c hc => by rw [h c hc])

theorem Plain.dnw {s : List Nat} (h : Plain s) : s.dropWhile (fun c => !blank c) = s.dropWhile (fun c => !white c) :=
  dropWhile_congr s (fun c hc => by rw [h c hc])

theorem take_drop (p : Nat → Bool) (w r : List Nat) (hw : ∀ c ∈ w, p c = true) (hr : ∀ c, r.head? = some c → p c = false) :
    (w ++ r).takeWhile p = w ∧ (w ++ r).dropWhile p = r := by
  induction w with
  | nil =>
    cases r with
    | nil => exact ⟨rfl, rfl⟩
    | cons c r =>
      have := hr c rfl
      simp [this]
  | cons c w ih =>
    obtain ⟨h1, h2⟩ := ih (fun x hx => hw x (by simp [hx]))
    have hc := hw c (by simp)
    rw [List.cons_append]
    refine ⟨?_, ?_⟩
    · rw [List.takeWhile_cons_of_pos hc, h1]
    · rw [List.dropWhile_cons_of_pos hc, h2]

/-- Taking off one field. -/
theorem split_field (s : List Nat) (h : Plain s) :
    (s.dropWhile blank = [] ∧ words s = []) ∨
    ∃ w r, s.dropWhile blank ≠ [] ∧ (s.dropWhile blank).takeWhile (fun c => !blank c) = w ∧ (s.dropWhile blank).dropWhile (fun c => !blank c) = r ∧
      words s = w :: words r ∧ Plain r := by
  rcases split_word s with ⟨h1, h2⟩ | ⟨w, r, h1, h2, h3, h4, h5, _⟩
  · left; exact ⟨by rw [h.dw, h1], h2⟩
  · right
    have htd := take_drop (fun c => !white c) w r (fun c hc => by simp [h3 c hc]) (fun c hc => by simp [h4 c hc])
    refine ⟨w, r, ?_, ?_, ?_, h5, ?_⟩
    · rw [h.dw, h1]; simp [h2]
    · rw [(h.drop (p := blank)).tw, h.dw, h1, htd.1]
    · rw [(h.drop (p := blank)).dnw, h.dw, h1, htd.2]
    · intro c hc
      exact h c (mem_dropWhile (p := white) s c (by rw [h1]; simp [hc]))

theorem aliasLoop_words (fuel : Nat) (s : List Nat) (h : Plain s) (hf : s.length < fuel) : aliasLoop fuel s = words s := by
  induction fuel generalizing s with
  | zero => omega
  | succ fuel ih =>
    cases s with
    | nil => rfl
    | cons c s =>
      simp only [List.length_cons] at hf
      rw [aliasLoop]
      by_cases hb : blank c = true
      · rw [if_pos hb, ih s (fun x hx => h x (by simp [hx])) (by omega), words_white c s (by rw [← h c (by simp)]; exact hb)]
      · rw [if_neg hb]
        rcases split_field (c :: s) h with ⟨h1, _⟩ | ⟨w, r, _, h2, h3, h4, h5⟩
        · rw [List.dropWhile_cons_of_neg hb] at h1; cases h1
        · rw [List.dropWhile_cons_of_neg hb] at h2 h3
          rw [h2, h3, h4, ih r h5]
          rw [← h3, List.dropWhile_cons_of_pos (by simpa using hb)]
          exact Nat.lt_of_le_of_lt (List.dropWhile_sublist _).length_le (by omega)

theorem parseLine_good (line : List Nat) (hg : GoodLine line) : parseLine line = .ok (entry line) := by
  obtain ⟨_, _, hb, hf⟩ := hg
  unfold entry
  unfold fields at hf ⊢
  unfold parseLine
  dsimp only
  have hp : Plain (line.takeWhile (· ≠ 35)) := by
    intro c hc
    have hc' := hb c ((List.takeWhile_sublist _).subset hc)
    rw [Bool.eq_iff_iff]
    refine ⟨?_, ?_⟩
    · intro h
      simp only [blank, Bool.or_eq_true, beq_iff_eq] at h
      rcases h with h | h <;> simp [white, h]
    · intro h
      rcases hc' h with h | h <;> simp [blank, h]
  generalize line.takeWhile (· ≠ 35) = v at hf hp ⊢
  rcases split_field v hp with ⟨h1, h2⟩ | ⟨w, r, h1, h2, h3, h4, h5⟩
  · rw [if_pos h1, h2]
  · rcases hf with hf | ⟨n, vv, a, as, hf, hd, hv⟩
    · rw [hf] at h4; cases h4
    · rw [if_neg h1, h2, h3]
      rw [hf] at h4 ⊢
      obtain ⟨hn, h4b⟩ := List.cons_eq_cons.1 h4
      clear h4
      subst hn
      have hr : r ≠ [] := by rintro rfl; simp [words, pieces] at h4b
      rw [if_neg hr]
      rcases split_field r h5 with ⟨_, k2⟩ | ⟨w2, r2, k1, k2, k3, k4, k5⟩
      · rw [k2] at h4b; cases h4b
      · rw [if_neg k1, k2, k3]
        rw [k4] at h4b
        obtain ⟨hvv, h4c⟩ := List.cons_eq_cons.1 h4b
        clear h4b
        subst hvv
        have hr2 : r2 ≠ [] := by rintro rfl; simp [words, pieces] at h4c
        rw [if_neg hr2, Db.toNumber_digits vv hd 0 hv]
        show (if r2.dropWhile blank = [] then Res.ok none
          else Res.ok (some (⟨n, Db.value vv, aliasLoop ((r2.dropWhile blank).length + 1) (r2.dropWhile blank)⟩ : Entry))) = _
        rcases split_field r2 k5 with ⟨_, j2⟩ | ⟨w3, r3, j1, _⟩
        · rw [j2] at h4c; cases h4c
        · rw [if_neg j1, aliasLoop_words _ _ k5.drop (by omega), k5.dw, words_dropWhile, ← h4c]

theorem mem_10 (l r : List Nat) (n : Nat) (hn : l.length < n) : 10 ∈ (l ++ 10 :: r).take n := by
  rw [List.take_append]
  apply List.mem_append_right
  obtain ⟨m, hm⟩ : ∃ m, n - l.length = m + 1 := ⟨n - l.length - 1, by omega⟩
  rw [hm, List.take_succ_cons]
  simp

theorem readLine_good (done : List Nat) (l r : List Nat) (h10 : 10 ∉ l) (hl : l.length < 256) (fuel : Nat) (hf : 0 < fuel) :
    readLine (done ++ (l ++ 10 :: r)) done.length fuel [] = .line l (done.length + l.length + 1) := by
  cases fuel with
  | zero => omega
  | succ fuel =>
    rw [readLine, List.drop_left]
    dsimp only
    have hm := mem_10 l r 256 hl
    have htake : ((l ++ 10 :: r).take 256).takeWhile (· ≠ 10) = l := by
      obtain ⟨m, hm⟩ : ∃ m, 256 - l.length = m + 1 := ⟨256 - l.length - 1, by omega⟩
      rw [List.take_append, List.take_of_length_le (by omega), hm, List.take_succ_cons]
      exact (take_drop (fun c => decide (c ≠ 10)) l (10 :: r.take m) (fun c hc => by
        have : c ≠ 10 := fun e => h10 (e ▸ hc)
        simpa using this) (fun c hc => by simp at hc; simp [← hc])).1
    rw [if_neg (fun e => by rw [e] at hm; cases hm), if_pos hm, List.nil_append, htake]

theorem file_append (a b : List (List Nat)) : Db.file (a ++ b) = Db.file a ++ Db.file b := by
  unfold Db.file
  rw [List.flatMap_append]

theorem file_cons (l : List Nat) (b : List (List Nat)) : Db.file (l :: b) = l ++ 10 :: Db.file b := by
  unfold Db.file
  rw [List.flatMap_cons, List.append_assoc]
  rfl

/-- findProto passes over lines. -/
theorem findProto_good (ls : List (List Nat)) (hg : ∀ l ∈ ls, GoodLine l) (want : Entry → Bool) (rest : List (List Nat)) :
    ∀ (done : List (List Nat)) (fuel : Nat), ls = done ++ rest → rest.length < fuel →
    ∃ done' rest', ls = done' ++ rest' ∧ search want (rest.filterMap entry) = ((search want (rest.filterMap entry)).1, rest'.filterMap entry) ∧
      findProto (Db.file ls) want fuel (Db.file done).length = .ok (some ((Db.file done').length, (search want (rest.filterMap entry)).1)) := by
  induction rest with
  | nil =>
    intro done fuel hls hfuel
    refine ⟨done, [], hls, rfl, ?_⟩
    cases fuel with
    | zero => omega
    | succ fuel =>
      rw [findProto, readLine]
      rw [List.append_nil] at hls
      subst hls
      rw [List.drop_length]
      rfl
  | cons l rest ih =>
    intro done fuel hls hfuel
    cases fuel with
    | zero => omega
    | succ fuel =>
      simp only [List.length_cons] at hfuel
      have hgl := hg l (by rw [hls]; simp)
      have hfile : Db.file ls = Db.file done ++ (l ++ 10 :: Db.file rest) := by rw [hls, file_append, file_cons]
      have hoff : (Db.file (done ++ [l])).length = (Db.file done).length + l.length + 1 := by
        rw [file_append, file_cons]
        simp [Db.file]
        omega
      have hnext : ls = (done ++ [l]) ++ rest := by rw [hls]; simp
      rw [findProto, hfile, readLine_good _ l _ hgl.1 hgl.2.1 _ (by omega), ← hfile]
      dsimp only
      rw [parseLine_good l hgl, ← hoff]
      obtain ⟨d', r', e1, e2, e3⟩ := ih (done ++ [l]) fuel hnext (by omega)
      cases he : entry l with
      | none =>
        have hfm : (l :: rest).filterMap entry = rest.filterMap entry := by rw [List.filterMap_cons_none he]
        rw [hfm]
        exact ⟨d', r', e1, e2, e3⟩
      | some e =>
        have hfm : (l :: rest).filterMap entry = e :: rest.filterMap entry := by rw [List.filterMap_cons_some he]
        rw [hfm]
        by_cases hw : want e = true
        · have hs : search want (e :: rest.filterMap entry) = (some e, rest.filterMap entry) := by
            unfold search
            rw [List.dropWhile_cons_of_neg (by simp [hw])]
          refine ⟨done ++ [l], rest, hnext, by rw [hs], ?_⟩
          rw [hs]
          show (if want e = true then _ else _) = _
          rw [if_pos hw]
        · have hs : search want (e :: rest.filterMap entry) = search want (rest.filterMap entry) := by
            unfold search
            rw [List.dropWhile_cons_of_pos (by simp [hw])]
          rw [hs]
          refine ⟨d', r', e1, e2, ?_⟩
          show (if want e = true then _ else _) = _
          rw [if_neg hw, e3]

/-- The state and the entries still to be read. -/
def Inv (ls : List (List Nat)) (off : Nat) (rest : List Entry) : Pos → Prop
  | .start => off = 0 ∧ rest = ls.filterMap entry
  | .moved => ∃ d r, ls = d ++ r ∧ off = (Db.file d).length ∧ rest = r.filterMap entry
  | .rewound => rest = ls.filterMap entry

theorem lookup_good (ls : List (List Nat)) (hg : ∀ l ∈ ls, GoodLine l) (fuel : Nat) (hf : ls.length < fuel) (st : St) (rewind : Bool)
    (want : Entry → Bool) (d r : List (List Nat)) (hls : ls = d ++ r) (hoff : (if rewind then 0 else st.off) = (Db.file d).length) :
    ∃ st', lookup (Db.file ls) fuel st rewind want = .ok (some (st', (search want (r.filterMap entry)).1)) ∧
      Inv ls st'.off (search want (r.filterMap entry)).2 .moved := by
  obtain ⟨d', r', e1, e2, e3⟩ := findProto_good ls hg want r d fuel hls (by rw [hls, List.length_append] at hf; omega)
  unfold lookup
  dsimp only
  generalize hst : (if st.fd = true then st else openFd st false) = st1
  have hst1 : st1.off = st.off := by
    rw [← hst]
    unfold openFd
    by_cases h : st.fd = true <;> simp [h]
  have hst2 : (if rewind = true then { st1 with off := 0 } else st1).off = (Db.file d).length := by
    rw [← hoff]
    by_cases h : rewind = true <;> simp [h, hst1]
  generalize (if rewind = true then { st1 with off := 0 } else st1) = st2 at hst2
  rw [hst2, e3]
  refine ⟨_, rfl, d', r', e1, ?_, by rw [e2]⟩
  by_cases h : st2.stay = true <;> simp [h, endprotoent]

theorem search_true (es : List Entry) : search (fun _ => true) es = (es.head?, es.tail) := by
  cases es with
  | nil => rfl
  | cons e es => rfl

theorem openFd_off (st : St) (stay : Bool) : (openFd st stay).off = st.off := by
  unfold openFd
  by_cases h : st.fd = true <;> by_cases h2 : stay = true <;> simp [h, h2]

theorem run_good (ls : List (List Nat)) (hg : ∀ l ∈ ls, GoodLine l) (fuel : Nat) (hf : ls.length < fuel) (ops : List Op) :
    ∀ (st : St) (rest : List Entry) (p : Pos), Inv ls st.off rest p → NoRewind p ops →
    ∃ st', run (Db.file ls) fuel st ops = .ok (some (st', answers (ls.filterMap entry) rest ops)) := by
  induction ops with
  | nil => intro st rest p _ _; exact ⟨st, rfl⟩
  | cons op ops ih =>
    intro st rest p hinv hno
    cases op with
    | byName n =>
      obtain ⟨st', h1, h2⟩ := lookup_good ls hg fuel hf st true (fun e => e.name == n) [] ls rfl rfl
      obtain ⟨st'', h3⟩ := ih st' _ .moved h2 hno
      refine ⟨st'', ?_⟩
      have hw : (fun e : Entry => n == e.name) = (fun e => e.name == n) := by
        funext e
        rw [Bool.eq_iff_iff, beq_iff_eq, beq_iff_eq]
        exact eq_comm
      rw [run, step, hw, h1]
      show (run (Db.file ls) fuel st' ops).bind _ = _
      rw [h3]
      rfl
    | byNumber n =>
      obtain ⟨st', h1, h2⟩ := lookup_good ls hg fuel hf st true (fun e => (e.number : Int) == n) [] ls rfl rfl
      obtain ⟨st'', h3⟩ := ih st' _ .moved h2 hno
      refine ⟨st'', ?_⟩
      have hw : (fun e : Entry => n == (e.number : Int)) = (fun e => (e.number : Int) == n) := by
        funext e
        rw [Bool.eq_iff_iff, beq_iff_eq, beq_iff_eq]
        exact eq_comm
      rw [run, step, hw, h1]
      show (run (Db.file ls) fuel st' ops).bind _ = _
      rw [h3]
      rfl
    | next =>
      obtain ⟨hp, hno⟩ := hno
      have hpos : ∃ d r, ls = d ++ r ∧ st.off = (Db.file d).length ∧ rest = r.filterMap entry := by
        cases p with
        | start => exact ⟨[], ls, rfl, hinv.1, hinv.2⟩
        | moved => exact hinv
        | rewound => exact absurd rfl hp
      obtain ⟨d, r, e1, e2, e3⟩ := hpos
      obtain ⟨st', h1, h2⟩ := lookup_good ls hg fuel hf st false (fun _ => true) d r e1 e2
      rw [search_true, ← e3] at h1 h2
      obtain ⟨st'', h3⟩ := ih st' _ .moved h2 hno
      refine ⟨st'', ?_⟩
      rw [run, step, h1]
      show (run (Db.file ls) fuel st' ops).bind _ = _
      rw [h3]
      rfl
    | set stay =>
      have hi : Inv ls (openFd st stay).off (ls.filterMap entry) (if p = .start then .start else .rewound) := by
        by_cases h : p = .start
        · subst h
          rw [if_pos rfl]
          exact ⟨by rw [openFd_off]; exact hinv.1, rfl⟩
        · rw [if_neg h]; exact rfl
      obtain ⟨st'', h3⟩ := ih (openFd st stay) _ _ hi hno
      refine ⟨st'', ?_⟩
      rw [run, step]
      show (run (Db.file ls) fuel (openFd st stay) ops).bind _ = _
      rw [h3]
      rfl
    | close =>
      have hi : Inv ls (endprotoent st).off (ls.filterMap entry) (if p = .start then .start else .rewound) := by
        by_cases h : p = .start
        · subst h
          rw [if_pos rfl]
          exact ⟨hinv.1, rfl⟩
        · rw [if_neg h]; exact rfl
      obtain ⟨st'', h3⟩ := ih (endprotoent st) _ _ hi hno
      refine ⟨st'', ?_⟩
      rw [run, step]
      show (run (Db.file ls) fuel (endprotoent st) ops).bind _ = _
      rw [h3]
      rfl

/-- **C87, partial.** For a well-formed file, any history of calls has the answers of the specification: getprotobyname and getprotobynumber give the first
entry with the name or the number, with its aliases; getprotoent the next entry. Missing: setprotoent and endprotoent should rewind; lines without aliases;
lines over 255 bytes, and a last line without newline. -/
theorem history_partial (ls : List (List Nat)) (hg : ∀ l ∈ ls, GoodLine l) (fuel : Nat) (hf : ls.length < fuel) (ops : List Op) (hno : NoRewind .start ops) :
    ∃ st', run (Db.file ls) fuel St.init ops = .ok (some (st', answers (ls.filterMap entry) (ls.filterMap entry) ops)) :=
  run_good ls hg fuel hf ops St.init _ .start ⟨rfl, rfl⟩ hno

/-- **C87**: no descriptor is left open by any history, on any file, unless setprotoent is called. -/
theorem no_leak (file : List Nat) (fuel : Nat) (ops : List Op) (hs : ∀ b, Op.set b ∉ ops) (st : St) (hst : st.fd = false) (st' : St)
    (rs : List (Option Entry)) (h : run file fuel st ops = .ok (some (st', rs))) : st'.fd = false := by
  have hlook : ∀ (st : St) (rw : Bool) (want : Entry → Bool) (st1 : St) (r : Option Entry), st.fd = false →
      lookup file fuel st rw want = .ok (some (st1, r)) → st1.fd = false := by
    intro st rw want st1 r hfd hl
    unfold lookup at hl
    dsimp only at hl
    generalize (findProto file want fuel (if rw = true then { (if st.fd = true then st else openFd st false) with off := 0 }
      else (if st.fd = true then st else openFd st false)).off) = q at hl
    cases q with
    | ub => cases hl
    | panic => cases hl
    | ok o =>
      cases o with
      | none => cases hl
      | some o =>
        simp only [Res.bind] at hl
        injection hl with hl
        injection hl with hl
        injection hl with hl _
        rw [← hl]
        by_cases hrw : rw = true <;> simp [hfd, openFd, endprotoent, hrw]
  induction ops generalizing st rs with
  | nil =>
    rw [run] at h
    injection h with h
    injection h with h
    injection h with h _
    rw [← h, hst]
  | cons op ops ih =>
    have hs' : ∀ b, Op.set b ∉ ops := fun b hb => hs b (by simp [hb])
    rw [run] at h
    have key : ∀ st1 r, step file fuel st op = .ok (some (st1, r)) → st1.fd = false := by
      intro st1 r hstep
      cases op with
      | byName n => exact hlook st true _ st1 r hst hstep
      | byNumber n => exact hlook st true _ st1 r hst hstep
      | next => exact hlook st false _ st1 r hst hstep
      | set b => exact absurd (by simp) (hs b)
      | close =>
        injection hstep with hstep
        injection hstep with hstep
        injection hstep with hstep _
        rw [← hstep]
        rfl
    cases hstep : step file fuel st op with
    | ub => rw [hstep] at h; cases h
    | panic => rw [hstep] at h; cases h
    | ok o =>
      cases o with
      | none => rw [hstep] at h; cases h
      | some o =>
        obtain ⟨st1, r⟩ := o
        rw [hstep] at h
        have h' : ((run file fuel st1 ops).bind fun
          | none => .ok none
          | some (st'', rs) => .ok (some (st'', r :: rs))) = .ok (some (st', rs)) := h
        cases hrun : run file fuel st1 ops with
        | ub => rw [hrun] at h'; cases h'
        | panic => rw [hrun] at h'; cases h'
        | ok o =>
          cases o with
          | none => rw [hrun] at h'; cases h'
          | some o =>
            rw [hrun] at h'
            simp only [Res.bind] at h'
            injection h' with h'
            injection h' with h'
            injection h' with h' _
            obtain ⟨o1, o2⟩ := o
            subst h'
            exact ih hs' st1 (key st1 r hstep) o2 hrun

/-! ## Examples and counterexamples -/

/-- "# x", "ip 0 IP", "", "tcp<tab>6 TCP T # c" -/
def sample : List (List Nat) :=
  [[35, 32, 120], [105, 112, 32, 48, 32, 73, 80], [], [116, 99, 112, 9, 54, 32, 84, 67, 80, 32, 84, 32, 35, 32, 99]]

theorem sample_good : ∀ l ∈ sample, GoodLine l := by
  intro l hl
  simp only [sample, List.mem_cons, List.not_mem_nil, or_false] at hl
  rcases hl with rfl | rfl | rfl | rfl
  · exact ⟨by decide, by decide, by decide, Or.inl (by decide)⟩
  · exact ⟨by decide, by decide, by decide, Or.inr ⟨[105, 112], [48], [73, 80], [], by decide, by decide, by decide⟩⟩
  · exact ⟨by decide, by decide, by decide, Or.inl (by decide)⟩
  · exact ⟨by decide, by decide, by decide, Or.inr ⟨[116, 99, 112], [54], [84, 67, 80], [[84]], by decide, by decide, by decide⟩⟩

/-- The hypotheses of `history_partial` are met. -/
example : ∃ st', run (Db.file sample) 5 St.init [.set true, .next, .byNumber 6, .next, .byName [105, 112], .next, .close] =
    .ok (some (st', [none, some ⟨[105, 112], 0, [[73, 80]]⟩, some ⟨[116, 99, 112], 6, [[84, 67, 80], [84]]⟩, none, some ⟨[105, 112], 0, [[73, 80]]⟩,
      some ⟨[116, 99, 112], 6, [[84, 67, 80], [84]]⟩, none])) := by
  obtain ⟨st', h⟩ := history_partial sample sample_good 5 (by decide) [.set true, .next, .byNumber 6, .next, .byName [105, 112], .next, .close]
    (by simp [NoRewind])
  refine ⟨st', ?_⟩
  rw [h]
  congr 3

/-- **C87 fails**: setprotoent and endprotoent do not go back to the first entry. -/
theorem rewind_violated :
    run (Db.file sample) 5 St.init [.next, .close, .next] =
      .ok (some (⟨false, 29, false⟩, [some ⟨[105, 112], 0, [[73, 80]]⟩, none, some ⟨[116, 99, 112], 6, [[84, 67, 80], [84]]⟩])) ∧
    run (Db.file sample) 5 St.init [.next, .set true, .next] =
      .ok (some (⟨true, 29, true⟩, [some ⟨[105, 112], 0, [[73, 80]]⟩, none, some ⟨[116, 99, 112], 6, [[84, 67, 80], [84]]⟩])) := by
  decide +kernel

/-- **C87 fails**: the entry "ospf 89", which has no alias, is not found. -/
theorem no_alias_violated :
    run (Db.file [[111, 115, 112, 102, 32, 56, 57]]) 5 St.init [.byName [111, 115, 112, 102], .byNumber 89] = .ok (some (⟨false, 8, false⟩, [none, none])) ∧
    entry [111, 115, 112, 102, 32, 56, 57] = some ⟨[111, 115, 112, 102], 89, []⟩ := by
  decide +kernel

theorem readLine_loop (file : List Nat) (off : Nat) (h1 : (file.drop off).take 256 ≠ []) (h2 : 10 ∉ (file.drop off).take 256) (fuel : Nat) :
    ∀ acc, readLine file off fuel acc = .unfinished := by
  induction fuel with
  | zero => intro acc; rfl
  | succ fuel ih =>
    intro acc
    rw [readLine]
    dsimp only
    rw [if_neg h1, if_neg h2, ih]

/-- **C87 fails**: with a line of more than 255 bytes, or a last line without newline, the search never ends. -/
theorem loop_violated (fuel : Nat) (n : Nat) (hn : 256 ≤ n) :
    run (Db.file [List.replicate n 97]) fuel St.init [.next] = .ok none ∧
    run [105, 112, 32, 48, 32, 73, 80] fuel St.init [.byName [105, 112]] = .ok none := by
  have key : ∀ (file : List Nat) (want : Entry → Bool), (file.drop 0).take 256 ≠ [] → 10 ∉ (file.drop 0).take 256 →
      findProto file want fuel 0 = .ok none := by
    intro file want h1 h2
    cases fuel with
    | zero => rfl
    | succ fuel => rw [findProto, readLine_loop file 0 h1 h2]
  refine ⟨?_, ?_⟩
  · rw [run, step, lookup]
    have := key (Db.file [List.replicate n 97]) (fun _ => true)
      (by rw [file_cons, List.drop_zero, List.take_append_of_le_length (by simpa using hn), List.take_replicate, Nat.min_eq_left hn]; intro h; exact absurd (congrArg List.length h) (by rw [List.length_replicate]; decide))
      (by rw [file_cons, List.drop_zero, List.take_append_of_le_length (by simpa using hn), List.take_replicate, Nat.min_eq_left hn]
          intro h; exact absurd (List.eq_of_mem_replicate h) (by decide))
    show ((findProto (Db.file [List.replicate n 97]) (fun _ => true) fuel 0).bind _).bind _ = _
    rw [this]
    rfl
  · rw [run, step, lookup]
    show ((findProto [105, 112, 32, 48, 32, 73, 80] (fun e => [105, 112] == e.name) fuel 0).bind _).bind _ = _
    rw [key _ _ (by decide) (by decide)]
    rfl

end Mlibc.Proto
