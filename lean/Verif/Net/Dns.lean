import Verif.Base

/-
Resolving host names over DNS: `read_dns_name`, `lookup_name_dns` (options/posix/generic/lookup.cpp L52-76, L78-230),
the part of `getaddrinfo`/`gethostbyname` that talks to a name server. Bytes are numbers below 256. The datagrams the
server sends are a parameter: `recvfrom` (L153) delivers them one after the other, cut to the 512 bytes of the buffer,
then `poll` (L152) times out. Reading the buffer beyond the bytes received is undefined (L145: it is not initialised).
Property C67.
-/
namespace Mlibc.Dns
open Mlibc

/-! ## Model -/

/-- Reading one byte of what was received. -/
def rd (pkt : List Nat) (i : Nat) : Res Nat :=
  match pkt[i]? with
  | some c => .ok c
  | none => .ub

/-- Reading `n` bytes. -/
def slice (pkt : List Nat) (i n : Nat) : Res (List Nat) :=
  if i + n ≤ pkt.length then .ok ((pkt.drop i).take n) else .ub

/-- `read_dns_name(buf, it)`: the text read and the new `it`; `res` is the text so far. L52-76. The function calls itself
for a compression pointer (L60); `fuel` bounds the calls and labels, and running out of it stands for running out of
stack, which is a crash (`panic`). -/
def readName (pkt : List Nat) : Nat → Nat → List Nat → Res (List Nat × Nat)
  | 0, _, _ => .panic
  | fuel + 1, it, res =>
    (rd pkt it).bind fun code =>
    if code ≥ 192 then
      (rd pkt (it + 1)).bind fun lo =>
      (readName pkt fuel ((code - 192) * 256 + lo) []).bind fun r => .ok (res ++ r.1, it + 2)
    else if code < 64 then
      if code = 0 then .ok (res, it + 1)
      else
        (slice pkt (it + 1) code).bind fun l =>
        (rd pkt (it + 1 + code)).bind fun nx =>
        readName pkt fuel (it + 1 + code) (res ++ l ++ if nx ≠ 0 then [46] else [])
    else .ok (res, it + 1)

/-- Address families. -/
inductive Fam
  | unspec | inet | inet6
  deriving DecidableEq, Repr

/-- `struct dns_addr_buf`: owner name, family, and the bytes copied into its 16-byte array. lookup.hpp L15-20 -/
structure Addr where
  name : List Nat
  fam : Fam
  bytes : List Nat
  deriving DecidableEq, Repr

/-- `struct lookup_result` and `canon_name`. lookup.hpp L22-27 -/
structure St where
  addrs : List Addr
  aliases : List (List Nat)
  canon : List Nat
  deriving DecidableEq, Repr

/-- The big-endian 16-bit number at `i`. L179-181 -/
def rd16 (pkt : List Nat) (i : Nat) : Res Nat :=
  (rd pkt i).bind fun a => (rd pkt (i + 1)).bind fun b => .ok (a * 256 + b)

/-- An address record (types A and AAAA): skipped if the other family was asked for, otherwise copied. `buffer.addr` has
16 bytes. L186-209 -/
def address (pkt : List Nat) (family fam : Fam) (owner : List Nat) (it len : Nat) (st : St) : Res (Nat × St) :=
  if family ≠ .unspec ∧ family ≠ fam then .ok (it + len, st)
  else if len > 16 then .ub
  else (slice pkt it len).bind fun b => .ok (it + len, { st with addrs := st.addrs ++ [⟨owner, fam, b⟩] })

/-- One round of the loop over the answers. L175-220 -/
def answer (pkt : List Nat) (fuel : Nat) (family : Fam) (it : Nat) (st : St) : Res (Nat × St) :=
  (readName pkt fuel it []).bind fun r =>
  (rd16 pkt r.2).bind fun type =>
  (rd16 pkt (r.2 + 2)).bind fun _ =>
  (rd16 pkt (r.2 + 8)).bind fun len =>
  if type = 1 then address pkt family .inet r.1 (r.2 + 10) len st
  else if type = 28 then address pkt family .inet6 r.1 (r.2 + 10) len st
  else if type = 5 then
    (readName pkt fuel (r.2 + 10) []).bind fun c =>
    .ok (c.2, { st with canon := c.1, aliases := st.aliases ++ [r.1] })
  else .ok (r.2 + 10 + len, st)

/-- The loop over the answers. L175-221 -/
def answers (pkt : List Nat) (fuel : Nat) (family : Fam) : Nat → Nat → St → Res St
  | 0, _, st => .ok st
  | n + 1, it, st => (answer pkt fuel family it st).bind fun r => answers pkt fuel family n r.1 r.2

/-- The loop over the questions. L169-173 -/
def questions (pkt : List Nat) (fuel : Nat) : Nat → Nat → Res Nat
  | 0, it => .ok it
  | n + 1, it => (readName pkt fuel it []).bind fun r => questions pkt fuel n (r.2 + 4)

/-- What `lookup_name_dns` reports. -/
inductive Out
  | found (st : St)
  | fail | noname | again
  deriving DecidableEq, Repr

/-- The loop that receives datagrams. L152-226. `ans` is `num_ans`; `num_q` is 1. The identification is always 123
(L84). -/
def receive (fuel : Nat) (family : Fam) : List (List Nat) → Nat → St → Res Out
  | [], _, _ => .ok .again
  | p :: ps, ans, st =>
    let pkt := p.take 512
    if pkt.length < 12 then receive fuel family ps ans st
    else
      (rd16 pkt 0).bind fun id =>
      if id ≠ 123 then .ok .fail
      else
        (rd16 pkt 2).bind fun flags =>
        if flags % 16 = 3 then .ok .noname
        else
          (rd16 pkt 4).bind fun qd => (rd16 pkt 6).bind fun an =>
          (questions pkt fuel qd 12).bind fun it =>
          (answers pkt fuel family an it st).bind fun st =>
          if ans + an ≥ 1 then .ok (.found st) else receive fuel family ps (ans + an) st

/-- The labels of the request, from a name that is not empty. L95-102 -/
def reqLabels (name : List Nat) : List Nat :=
  (name.takeWhile (· ≠ 46)).length % 256 :: (name.takeWhile (· ≠ 46) ++
    (if _h : name.dropWhile (· ≠ 46) = [] then [] else reqLabels (name.dropWhile (· ≠ 46)).tail))
termination_by name.length
decreasing_by
  have h1 : (name.dropWhile (· ≠ 46)).length ≤ name.length := (List.dropWhile_sublist _).length_le
  have h2 : (name.dropWhile (· ≠ 46)).length ≠ 0 := fun h' => _h (List.length_eq_zero_iff.1 h')
  simp only [List.length_tail]; omega

/-- The request: header (L82-92), question name, type and class (L104-113). -/
def request (name : List Nat) (family : Fam) : List Nat :=
  [0, 123, 1, 0, 0, 1, 0, 0, 0, 0, 0, 0] ++ (if name = [] then [] else reqLabels name) ++ [0] ++
    [0, if family = .inet6 then 28 else 1] ++ [0, 1]

/-- `lookup_name_dns`: the request sent and the outcome. The service port, the name server's address and the socket
calls (L115-143) are left out. L78-230 -/
def lookup (fuel : Nat) (name : List Nat) (family : Fam) (datagrams : List (List Nat)) : List Nat × Res Out :=
  (request name family, receive fuel family datagrams 0 ⟨[], [], []⟩)

/-! ## Specification: the DNS message format (RFC 1035, section 4) -/

/-- The text of a name: its labels with dots in between. -/
def text : List (List Nat) → List Nat
  | [] => []
  | [l] => l
  | l :: ls => l ++ 46 :: text ls

/-- At position `i` of the message stands the name with these labels; what follows it begins at `e`. With `full = false`
a pointer right after a label does not lead to the empty name. -/
inductive Name (full : Bool) (pkt : List Nat) : Nat → List (List Nat) → Nat → Prop
  | root {i} : pkt[i]? = some 0 → Name full pkt i [] (i + 1)
  | label {i l ls e} : 0 < l.length → l.length < 64 → pkt[i]? = some l.length →
      (∀ k < l.length, pkt[i + 1 + k]? = l[k]?) → full = true ∨ ls ≠ [] ∨ pkt[i + 1 + l.length]? = some 0 →
      Name full pkt (i + 1 + l.length) ls e → Name full pkt i (l :: ls) e
  | pointer {i hi lo ls e} : hi < 64 → pkt[i]? = some (192 + hi) → pkt[i + 1]? = some lo →
      Name full pkt (hi * 256 + lo) ls e → Name full pkt i ls (i + 2)

/-- The two bytes at `i` are the number `v`. -/
def Num16 (pkt : List Nat) (i v : Nat) : Prop := ∃ a b, pkt[i]? = some a ∧ pkt[i + 1]? = some b ∧ b < 256 ∧ v = a * 256 + b

/-- What a resource record says. -/
inductive Data
  | a (bytes : List Nat)
  | aaaa (bytes : List Nat)
  | cname (target : List (List Nat))
  | other (type : Nat)
  deriving DecidableEq, Repr

structure Rec where
  owner : List (List Nat)
  data : Data
  deriving DecidableEq, Repr

/-- At `i` stands a resource record; the next one begins at `e`. -/
inductive Record (full : Bool) (pkt : List Nat) : Nat → Rec → Nat → Prop
  | a {i owner p b} : Name full pkt i owner p → Num16 pkt p 1 → Num16 pkt (p + 2) 1 → Num16 pkt (p + 8) 4 →
      b.length = 4 → (∀ k < 4, pkt[p + 10 + k]? = b[k]?) → Record full pkt i ⟨owner, .a b⟩ (p + 10 + 4)
  | aaaa {i owner p b} : Name full pkt i owner p → Num16 pkt p 28 → Num16 pkt (p + 2) 1 → Num16 pkt (p + 8) 16 →
      b.length = 16 → (∀ k < 16, pkt[p + 10 + k]? = b[k]?) → Record full pkt i ⟨owner, .aaaa b⟩ (p + 10 + 16)
  | cname {i owner p len target} : Name full pkt i owner p → Num16 pkt p 5 → Num16 pkt (p + 2) 1 →
      Num16 pkt (p + 8) len → Name full pkt (p + 10) target (p + 10 + len) →
      Record full pkt i ⟨owner, .cname target⟩ (p + 10 + len)
  | other {i owner p cls len type} : Name full pkt i owner p → Num16 pkt p type → type ≠ 1 → type ≠ 28 → type ≠ 5 →
      Num16 pkt (p + 2) cls → Num16 pkt (p + 8) len → p + 10 + len ≤ pkt.length →
      Record full pkt i ⟨owner, .other type⟩ (p + 10 + len)

inductive Records (full : Bool) (pkt : List Nat) : Nat → List Rec → Prop
  | nil {i} : Records full pkt i []
  | cons {i r rs e} : Record full pkt i r e → Records full pkt e rs → Records full pkt i (r :: rs)

inductive Questions (full : Bool) (pkt : List Nat) : Nat → Nat → Nat → Prop
  | nil {i} : Questions full pkt i 0 i
  | cons {i n ls e e'} : Name full pkt i ls e → Questions full pkt (e + 4) n e' → Questions full pkt i (n + 1) e'

/-- A reply with these flags and answers. -/
structure Reply (full : Bool) (pkt : List Nat) (flags : Nat) (rs : List Rec) : Prop where
  size : 12 ≤ pkt.length ∧ pkt.length ≤ 512
  id : Num16 pkt 0 123
  flags : Num16 pkt 2 flags
  body : ∃ qd e, Num16 pkt 4 qd ∧ Num16 pkt 6 rs.length ∧ Questions full pkt 12 qd e ∧ Records full pkt e rs

/-- The addresses of the family asked for, in the order of the reply. -/
def wanted (family : Fam) : List Rec → List Addr
  | [] => []
  | ⟨owner, .a b⟩ :: rs => (if family = .inet6 then [] else [⟨text owner, .inet, b⟩]) ++ wanted family rs
  | ⟨owner, .aaaa b⟩ :: rs => (if family = .inet then [] else [⟨text owner, .inet6, b⟩]) ++ wanted family rs
  | _ :: rs => wanted family rs

/-- The names that are aliases. -/
def aliases : List Rec → List (List Nat)
  | [] => []
  | ⟨owner, .cname _⟩ :: rs => text owner :: aliases rs
  | _ :: rs => aliases rs

/-- The target of the last alias. -/
def canon (c : List Nat) : List Rec → List Nat
  | [] => c
  | ⟨_, .cname t⟩ :: rs => canon (text t) rs
  | _ :: rs => canon c rs

/-! ## Proofs -/

theorem rd_ok {pkt : List Nat} {i c : Nat} (h : pkt[i]? = some c) : rd pkt i = .ok c := by simp [rd, h]

theorem rd16_ok {pkt : List Nat} {i v : Nat} (h : Num16 pkt i v) : rd16 pkt i = .ok v := by
  obtain ⟨a, b, h1, h2, _, rfl⟩ := h
  simp [rd16, rd_ok h1, rd_ok h2, Res.bind]

theorem slice_ok {pkt l : List Nat} {i : Nat} (h : ∀ k < l.length, pkt[i + k]? = l[k]?) (hp : 0 < l.length) :
    slice pkt i l.length = .ok l := by
  have hl : i + l.length ≤ pkt.length := by
    have := h (l.length - 1) (by omega)
    rw [List.getElem?_eq_getElem (l := l) (by omega)] at this
    have := (List.getElem?_eq_some_iff.1 this).1
    omega
  simp only [slice, if_pos hl]
  congr 1
  apply List.ext_getElem?
  intro k
  by_cases hk : k < l.length
  · rw [List.getElem?_take_of_lt hk, List.getElem?_drop]; exact h k hk
  · rw [List.getElem?_eq_none (by simp; omega), List.getElem?_eq_none (by omega)]

theorem text_cons (l : List Nat) (ls : List (List Nat)) : text (l :: ls) = l ++ if ls = [] then [] else 46 :: text ls := by
  cases ls <;> simp [text]

theorem readName_name {pkt : List Nat} {i e : Nat} {ls : List (List Nat)} (h : Name false pkt i ls e) :
    ∃ F, ∀ fuel ≥ F, ∀ res, readName pkt fuel i res = .ok (res ++ text ls, e) := by
  induction h with
  | root h =>
    refine ⟨1, fun fuel hf res => ?_⟩
    obtain ⟨n, rfl⟩ : ∃ n, fuel = n + 1 := ⟨fuel - 1, by omega⟩
    simp [readName, rd_ok h, Res.bind, text]
  | @label i l ls e h0 h1 h2 h3 h4 h5 ih =>
    obtain ⟨F, ih⟩ := ih
    refine ⟨F + 1, fun fuel hf res => ?_⟩
    obtain ⟨n, rfl⟩ : ∃ n, fuel = n + 1 := ⟨fuel - 1, by omega⟩
    have hnx : ∃ nx, pkt[i + 1 + l.length]? = some nx ∧ (nx ≠ 0 ↔ ls ≠ []) := by
      cases h5 with
      | root h => exact ⟨0, h, by simp⟩
      | @label _ l' ls' _ a b c _ _ _ => exact ⟨_, c, ⟨fun _ => by simp, fun _ => by omega⟩⟩
      | @pointer _ hi lo _ e a b c d =>
        refine ⟨_, b, ⟨fun _ hls => ?_, fun _ => by omega⟩⟩
        rcases h4 with h4 | h4 | h4
        · cases h4
        · exact h4 hls
        · rw [b] at h4; simp only [Option.some.injEq] at h4; omega
    obtain ⟨nx, hnx, hz⟩ := hnx
    have e1 : ¬ l.length ≥ 192 := by omega
    have e2 : l.length ≠ 0 := by omega
    simp only [readName, rd_ok h2, Res.bind, if_neg e1, if_pos h1, if_neg e2, slice_ok h3 h0, rd_ok hnx]
    rw [ih n (by omega), text_cons]
    by_cases hls : ls = []
    · simp [hls, text, show ¬ nx ≠ 0 from fun h => hz.1 h hls]
    · simp [hls, hz.2 hls]
  | @pointer i hi lo ls e h1 h2 h3 _ ih =>
    obtain ⟨F, ih⟩ := ih
    refine ⟨F + 1, fun fuel hf res => ?_⟩
    obtain ⟨n, rfl⟩ : ∃ n, fuel = n + 1 := ⟨fuel - 1, by omega⟩
    have e1 : 192 + hi ≥ 192 := by omega
    simp only [readName, rd_ok h2, rd_ok h3, Res.bind, if_pos e1, Nat.add_sub_cancel_left]
    rw [ih n (by omega)]
    simp

theorem questions_ok {pkt : List Nat} {i n e : Nat} (h : Questions false pkt i n e) :
    ∃ F, ∀ fuel ≥ F, questions pkt fuel n i = .ok e := by
  induction h with
  | nil => exact ⟨0, fun _ _ => rfl⟩
  | cons h _ ih =>
    obtain ⟨F1, h1⟩ := readName_name h
    obtain ⟨F2, h2⟩ := ih
    refine ⟨F1 + F2, fun fuel hf => ?_⟩
    simp only [questions, h1 fuel (by omega), Res.bind, h2 fuel (by omega)]

/-- The state after one more record. -/
def after (family : Fam) (st : St) (r : Rec) : St :=
  ⟨st.addrs ++ wanted family [r], st.aliases ++ aliases [r], canon st.canon [r]⟩

theorem answer_ok {pkt : List Nat} {i e : Nat} {r : Rec} (h : Record false pkt i r e) (family : Fam) (st : St) :
    ∃ F, ∀ fuel ≥ F, answer pkt fuel family i st = .ok (e, after family st r) := by
  cases h with
  | @a owner p b h1 h2 h3 h4 h5 h6 =>
    obtain ⟨F, hF⟩ := readName_name h1
    refine ⟨F, fun fuel hf => ?_⟩
    have hs : slice pkt (p + 10) 4 = .ok b := by
      have := slice_ok (pkt := pkt) (i := p + 10) (l := b) (by rw [h5]; exact h6) (by omega)
      rwa [h5] at this
    simp only [answer, hF fuel hf, Res.bind, rd16_ok h2, rd16_ok h3, rd16_ok h4, if_true, address, List.nil_append]
    cases family <;> simp [after, wanted, aliases, canon, hs]
  | @aaaa owner p b h1 h2 h3 h4 h5 h6 =>
    obtain ⟨F, hF⟩ := readName_name h1
    refine ⟨F, fun fuel hf => ?_⟩
    have hs : slice pkt (p + 10) 16 = .ok b := by
      have := slice_ok (pkt := pkt) (i := p + 10) (l := b) (by rw [h5]; exact h6) (by omega)
      rwa [h5] at this
    simp only [answer, hF fuel hf, Res.bind, rd16_ok h2, rd16_ok h3, rd16_ok h4, address, List.nil_append]
    cases family <;> simp [after, wanted, aliases, canon, hs]
  | @cname owner p len target h1 h2 h3 h4 h5 =>
    obtain ⟨F1, hF1⟩ := readName_name h1
    obtain ⟨F2, hF2⟩ := readName_name h5
    refine ⟨F1 + F2, fun fuel hf => ?_⟩
    simp only [answer, hF1 fuel (by omega), Res.bind, rd16_ok h2, rd16_ok h3, rd16_ok h4, hF2 fuel (by omega),
      List.nil_append]
    simp [after, wanted, aliases, canon]
  | @other owner p cls len type h1 h2 t1 t28 t5 h3 h4 h5 =>
    obtain ⟨F, hF⟩ := readName_name h1
    refine ⟨F, fun fuel hf => ?_⟩
    simp only [answer, hF fuel hf, Res.bind, rd16_ok h2, rd16_ok h3, rd16_ok h4, if_neg t1, if_neg t28, if_neg t5]
    simp [after, wanted, aliases, canon]

theorem wanted_cons (family : Fam) (r : Rec) (rs : List Rec) : wanted family (r :: rs) = wanted family [r] ++ wanted family rs := by
  obtain ⟨o, d⟩ := r
  cases d <;> simp [wanted]

theorem aliases_cons (r : Rec) (rs : List Rec) : aliases (r :: rs) = aliases [r] ++ aliases rs := by
  obtain ⟨o, d⟩ := r
  cases d <;> simp [aliases]

theorem canon_cons (c : List Nat) (r : Rec) (rs : List Rec) : canon c (r :: rs) = canon (canon c [r]) rs := by
  obtain ⟨o, d⟩ := r
  cases d <;> simp [canon]

theorem answers_ok {pkt : List Nat} {i : Nat} {rs : List Rec} (h : Records false pkt i rs) (family : Fam) (st : St) :
    ∃ F, ∀ fuel ≥ F, answers pkt fuel family rs.length i st =
      .ok ⟨st.addrs ++ wanted family rs, st.aliases ++ aliases rs, canon st.canon rs⟩ := by
  induction h generalizing st with
  | nil => exact ⟨0, fun _ _ => by simp [answers, wanted, aliases, canon]⟩
  | @cons i r rs e h _ ih =>
    obtain ⟨F1, h1⟩ := answer_ok h family st
    obtain ⟨F2, h2⟩ := ih (after family st r)
    refine ⟨F1 + F2, fun fuel hf => ?_⟩
    simp only [List.length_cons, answers, h1 fuel (by omega), Res.bind, h2 fuel (by omega)]
    rw [wanted_cons, aliases_cons r rs, canon_cons]
    simp [after]

/-- **C67** (well-formed replies): whatever name was asked for, a well-formed reply that carries at least one record and
does not say "no such name" yields exactly the addresses of the family asked for that the reply contains, in its order,
with their owners' names, and its aliases. Datagrams too short to be a reply that come before it are ignored.
Missing from the full property: see the `_violated` theorems below. -/
theorem reply_exact_partial {pkt : List Nat} {flags : Nat} {rs : List Rec} (h : Reply false pkt flags rs)
    (hr : flags % 16 ≠ 3) (hn : rs ≠ []) (name : List Nat) (family : Fam) (short more : List (List Nat))
    (hs : ∀ p ∈ short, p.length < 12) :
    ∃ F, ∀ fuel ≥ F, (lookup fuel name family (short ++ pkt :: more)).2 =
      .ok (.found ⟨wanted family rs, aliases rs, canon [] rs⟩) := by
  obtain ⟨⟨l1, l2⟩, hid, hfl, qd, e, hqd, han, hq, hrs⟩ := h
  obtain ⟨F1, h1⟩ := questions_ok hq
  obtain ⟨F2, h2⟩ := answers_ok hrs family ⟨[], [], []⟩
  refine ⟨F1 + F2, fun fuel hf => ?_⟩
  simp only [lookup]
  induction short with
  | cons p ps ih =>
    simp only [List.cons_append, receive]
    have hp := hs p (by simp)
    rw [if_pos (by simp only [List.length_take]; omega)]
    exact ih (fun q hq => hs q (by simp [hq]))
  | nil =>
    simp only [List.nil_append, receive, List.take_of_length_le l2]
    rw [if_neg (by omega)]
    have hpos : 0 + rs.length ≥ 1 := by
      cases rs with
      | nil => exact absurd rfl hn
      | cons => simp
    simp only [rd16_ok hid, rd16_ok hfl, rd16_ok hqd, rd16_ok han, Res.bind, h1 fuel (by omega), h2 fuel (by omega),
      ne_eq, not_true, if_false, if_neg hr, if_pos hpos, List.nil_append]

/-- **C67** ("no such name"): reported as `EAI_NONAME`, without looking at the rest. -/
theorem reply_nxdomain {pkt : List Nat} {flags : Nat} (h1 : 12 ≤ pkt.length ∧ pkt.length ≤ 512) (h2 : Num16 pkt 0 123)
    (h3 : Num16 pkt 2 flags) (h4 : flags % 16 = 3) (fuel : Nat) (name : List Nat) (family : Fam)
    (more : List (List Nat)) : (lookup fuel name family (pkt :: more)).2 = .ok .noname := by
  simp only [lookup, receive, List.take_of_length_le h1.2]
  rw [if_neg (by omega)]
  simp [rd16_ok h2, rd16_ok h3, Res.bind, h4]

/-- **C67** (no answer): if nothing arrives, the outcome is `EAI_AGAIN`. -/
theorem no_reply (fuel : Nat) (name : List Nat) (family : Fam) : (lookup fuel name family []).2 = .ok .again := rfl

/-! ### The request -/

/-- A label as the request should carry it. -/
def Label (l : List Nat) : Prop := 0 < l.length ∧ l.length < 64 ∧ ∀ c ∈ l, c ≠ 46 ∧ c ≠ 0

/-- The encoding of a name. -/
def encode : List (List Nat) → List Nat
  | [] => [0]
  | l :: ls => l.length :: (l ++ encode ls)

theorem takeWhile_label {l : List Nat} (h : ∀ c ∈ l, c ≠ 46 ∧ c ≠ 0) (t : List Nat) (ht : t = [] ∨ t.head? = some 46) :
    (l ++ t).takeWhile (· ≠ 46) = l ∧ (l ++ t).dropWhile (· ≠ 46) = t := by
  induction l with
  | nil =>
    rcases ht with rfl | ht
    · simp
    · cases t with
      | nil => simp at ht
      | cons c t => simp only [List.head?_cons, Option.some.injEq] at ht; subst ht; simp
  | cons c l ih =>
    have := ih (fun x hx => h x (by simp [hx]))
    have hc := (h c (by simp)).1
    simp [hc] at this ⊢
    exact this

theorem reqLabels_encode (ls : List (List Nat)) (hl : ∀ l ∈ ls, Label l) (hne : ls ≠ []) :
    reqLabels (text ls) ++ [0] = encode ls := by
  induction ls with
  | nil => exact absurd rfl hne
  | cons l ls ih =>
    have h1 := hl l (by simp)
    have hmod : l.length % 256 = l.length := Nat.mod_eq_of_lt (by have := h1.2.1; omega)
    rw [text_cons]
    by_cases hls : ls = []
    · subst hls
      obtain ⟨a, b⟩ := takeWhile_label h1.2.2 [] (.inl rfl)
      rw [reqLabels]
      simp only [List.append_nil] at a b
      simp only [if_true, List.append_nil, a, b, hmod]
      simp [encode]
    · obtain ⟨a, b⟩ := takeWhile_label h1.2.2 (46 :: text ls) (.inr rfl)
      rw [reqLabels]
      simp only [if_neg hls, a, b, hmod]
      simp only [reduceCtorEq, dite_false, List.tail_cons, encode, List.cons_append, List.append_assoc,
        ih (fun x hx => hl x (by simp [hx])) hls]

theorem name_encode (pre post : List Nat) (ls : List (List Nat)) (hl : ∀ l ∈ ls, Label l) :
    Name false (pre ++ encode ls ++ post) pre.length ls (pre.length + (encode ls).length) := by
  induction ls generalizing pre with
  | nil => exact .root (by simp [encode])
  | cons l ls ih =>
    have h1 := hl l (by simp)
    have := ih (pre ++ l.length :: l) (fun x hx => hl x (by simp [hx]))
    have hlen : (pre ++ l.length :: l).length = pre.length + 1 + l.length := by simp; omega
    have hpkt : pre ++ encode (l :: ls) ++ post = pre ++ l.length :: l ++ encode ls ++ post := by simp [encode]
    have hend : pre.length + (encode (l :: ls)).length = pre.length + 1 + l.length + (encode ls).length := by
      simp [encode]; omega
    rw [hpkt, hend]
    rw [hlen] at this
    refine .label h1.1 h1.2.1 (by simp) (fun k hk => ?_) ?_ this
    · rw [show pre ++ l.length :: l ++ encode ls ++ post = (pre ++ [l.length]) ++ (l ++ (encode ls ++ post)) by simp,
        List.getElem?_append_right (by simp), List.getElem?_append_left (by simp; omega)]
      congr 1; simp
    · cases ls with
      | nil =>
        right; right
        rw [show pre ++ l.length :: l ++ encode [] ++ post = (pre ++ l.length :: l) ++ (0 :: post) by simp [encode],
          List.getElem?_append_right (by simp; omega), hlen]
        simp
      | cons => exact .inr (.inl (by simp))

/-- **C67** (the question asked): for a host name whose labels have 1 to 63 characters, the request is the 12-byte
header with identification 123, recursion desired and one question, then the encoding of exactly that name, the type A
(or AAAA for IPv6) and the class IN. -/
theorem request_exact_partial (ls : List (List Nat)) (hl : ∀ l ∈ ls, Label l) (family : Fam) :
    ∃ e, Name false (request (text ls) family) 12 ls e ∧ Num16 (request (text ls) family) 0 123 ∧
      Num16 (request (text ls) family) 4 1 ∧
      (request (text ls) family).drop e = [0, if family = .inet6 then 28 else 1, 0, 1] := by
  have key : request (text ls) family = [0, 123, 1, 0, 0, 1, 0, 0, 0, 0, 0, 0] ++ encode ls ++
      [0, if family = .inet6 then 28 else 1, 0, 1] := by
    by_cases h : ls = []
    · subst h; simp [request, text, encode]
    · have hne : text ls ≠ [] := by
        cases ls with
        | nil => exact absurd rfl h
        | cons l ls =>
          have := (hl l (by simp)).1
          rw [text_cons]
          intro h'
          simp only [List.append_eq_nil_iff] at h'
          rw [h'.1] at this; simp at this
      have := reqLabels_encode ls hl h
      simp only [request, if_neg hne]
      rw [← this]
      simp
  refine ⟨12 + (encode ls).length, ?_, ?_, ?_, ?_⟩
  · rw [key]; exact name_encode [0, 123, 1, 0, 0, 1, 0, 0, 0, 0, 0, 0] _ ls hl
  · rw [key]; exact ⟨0, 123, by simp, by simp, by simp, by simp⟩
  · rw [key]; exact ⟨0, 1, by simp, by simp, by simp, by simp⟩
  · rw [key, show 12 + (encode ls).length = ([0, 123, 1, 0, 0, 1, 0, 0, 0, 0, 0, 0] ++ encode ls).length by simp; omega,
      List.drop_left]

/-! ### A concrete case -/

/-- A reply to "a.b": a CNAME to "c" with two compression pointers, and an A record for "c". -/
def sample : List Nat :=
  [0, 123, 0x81, 0x80, 0, 1, 0, 2, 0, 0, 0, 0,
   1, 97, 1, 98, 0, 0, 1, 0, 1,
   192, 12, 0, 5, 0, 1, 0, 0, 0, 60, 0, 3, 1, 99, 0,
   192, 33, 0, 1, 0, 1, 0, 0, 0, 60, 0, 4, 10, 0, 0, 1]

theorem sample_reply : Reply false sample 0x8180
    [⟨[[97], [98]], .cname [[99]]⟩, ⟨[[99]], .a [10, 0, 0, 1]⟩] := by
  have n12 : Name false sample 12 [[97], [98]] 17 :=
    .label (l := [97]) (by decide) (by decide) (by decide) (by decide) (.inr (.inl (by decide)))
      (.label (l := [98]) (by decide) (by decide) (by decide) (by decide) (.inr (.inr (by decide))) (.root (by decide)))
  have n33 : Name false sample 33 [[99]] 36 :=
    .label (l := [99]) (by decide) (by decide) (by decide) (by decide) (.inr (.inr (by decide))) (.root (by decide))
  refine ⟨by decide, ⟨0, 123, by decide⟩, ⟨0x81, 0x80, by decide⟩, 1, 21, ⟨0, 1, by decide⟩, ⟨0, 2, by decide⟩,
    .cons n12 .nil, ?_⟩
  refine .cons (.cname (p := 23) (len := 3) (.pointer (hi := 0) (lo := 12) (by decide) (by decide) (by decide) n12)
    ⟨0, 5, by decide⟩ ⟨0, 1, by decide⟩ ⟨0, 3, by decide⟩ n33) ?_
  refine .cons (.a (p := 38) (.pointer (hi := 0) (lo := 33) (by decide) (by decide) (by decide) n33)
    ⟨0, 1, by decide⟩ ⟨0, 1, by decide⟩ ⟨0, 4, by decide⟩ rfl (by decide)) .nil

example : (lookup 20 [97, 46, 98] .unspec [[0, 1], sample]).2 =
    .ok (.found ⟨[⟨[99], .inet, [10, 0, 0, 1]⟩], [[97, 46, 98]], [99]⟩) := by decide +kernel

example : ∃ F, ∀ fuel ≥ F, (lookup fuel [97, 46, 98] .inet ([[0, 1]] ++ sample :: [])).2 =
    .ok (.found ⟨[⟨[99], .inet, [10, 0, 0, 1]⟩], [[97, 46, 98]], [99]⟩) :=
  reply_exact_partial sample_reply (by decide) (by simp) _ _ _ _ (by simp)

/-! ### Where the code departs from the property -/

/-- **C67 does not hold in full**: a compression pointer that leads to itself makes the resolver call itself until the
stack is exhausted, however large it is: one datagram from the network crashes the program. -/
theorem pointer_loop_violated :
    ∀ fuel, (lookup fuel [97] .inet [[0, 123, 0x81, 0x80, 0, 1, 0, 1, 0, 0, 0, 0, 192, 12, 0, 1, 0, 1]]).2 = .panic := by
  have key : ∀ fuel res, readName [0, 123, 0x81, 0x80, 0, 1, 0, 1, 0, 0, 0, 0, 192, 12, 0, 1, 0, 1] fuel 12 res = .panic := by
    intro fuel
    induction fuel with
    | zero => intro res; rfl
    | succ n ih =>
      intro res
      simp only [readName, rd]
      simp [Res.bind, ih]
  intro fuel
  simp [lookup, receive, rd16, rd, Res.bind, questions, key]

/-- **C67 does not hold in full**: a record that claims to be longer than an address makes the resolver write beyond the
16-byte array on its stack. -/
theorem long_address_violated : (lookup 20 [97] .inet
    [[0, 123, 0x81, 0x80, 0, 0, 0, 1, 0, 0, 0, 0, 0, 0, 1, 0, 1, 0, 0, 0, 60, 0, 17] ++ List.replicate 17 65]).2 = .ub := by
  decide +kernel

/-- **C67 does not hold in full**: a reply cut short makes the resolver read bytes it has not received. -/
theorem truncated_violated :
    (lookup 20 [97] .inet [[0, 123, 0x81, 0x80, 0, 1, 0, 0, 0, 0, 0, 0, 5, 97]]).2 = .ub := by decide +kernel

/-- **C67 does not hold in full**: neither the question nor the owner of a record is compared with the name asked for:
a reply about "c" is taken as an answer about "a". -/
theorem foreign_answer_violated : (lookup 20 [97] .inet
    [[0, 123, 0x81, 0x80, 0, 1, 0, 1, 0, 0, 0, 0, 1, 99, 0, 0, 1, 0, 1, 192, 12, 0, 1, 0, 1, 0, 0, 0, 60, 0, 4, 6, 6, 6, 6]]).2 =
    .ok (.found ⟨[⟨[99], .inet, [6, 6, 6, 6]⟩], [], []⟩) := by decide +kernel

/-- **C67 does not hold in full**: any datagram with another identification ends the lookup with a failure, although
the reply comes next. -/
theorem stray_datagram_violated :
    (lookup 20 [97, 46, 98] .inet [List.replicate 12 0, sample]).2 = .ok .fail := by decide +kernel

/-- **C67 does not hold in full**: a name whose pointer leads to the empty name after a label is given a dot at the
end. -/
theorem trailing_dot_violated : Name true [0, 1, 97, 192, 0] 1 [[97]] 5 ∧
    readName [0, 1, 97, 192, 0] 5 1 [] = .ok ([97, 46], 5) :=
  ⟨.label (l := [97]) (by decide) (by decide) (by decide) (by decide) (.inl rfl)
    (.pointer (hi := 0) (lo := 0) (by decide) (by decide) (by decide) (.root (by decide))), by decide +kernel⟩

theorem reqLabels_dot : reqLabels [97, 46] = [1, 97, 0] := by
  rw [reqLabels]
  simp only [show ([97, 46] : List Nat).takeWhile (· ≠ 46) = [97] from rfl,
    show ([97, 46] : List Nat).dropWhile (· ≠ 46) = [46] from rfl, List.tail_cons]
  rw [reqLabels]
  rfl

/-- **C67 does not hold in full**: a name written with its final dot is sent with two terminators, and a label of
more than 63 characters is sent with its length in the length byte, which servers read as something else. -/
theorem request_violated :
    (request [97, 46] .inet).drop 12 = [1, 97, 0, 0, 0, 1, 0, 1] ∧
    ∀ n, 63 < n → n < 256 → (request (List.replicate n 97) .inet)[12]? = some n := by
  constructor
  · have h := reqLabels_dot
    simp [request, h]
  · intro n h1 h2
    have h : (List.replicate n 97).takeWhile (fun x : Nat => decide (x ≠ 46)) = List.replicate n 97 := by
      rw [List.takeWhile_replicate, if_pos (by decide)]
    have h0 : (List.replicate n 97 : List Nat) ≠ [] := by
      intro h; have := congrArg List.length h; simp at this; omega
    have hm : n % 256 = n := by omega
    rw [request, if_neg h0, reqLabels, h]
    simp only [List.length_replicate, hm, List.append_assoc, List.cons_append, List.nil_append, List.getElem?_cons_succ,
      List.getElem?_cons_zero]

end Mlibc.Dns
