import Verif.Net.ServPort
import Verif.Net.Hosts

/-
getaddrinfo and getnameinfo (options/posix/generic/netdb.cpp), with lookup_name_null and lookup_name_ip of options/posix/generic/lookup.cpp. The
service is looked up by the model of services.cpp (C84); the lookups in /etc/hosts (C85) and by DNS (C67), inet_pton, inet_ntop (C49) and the state of the
network are parameters. Property C86.
-/
namespace Mlibc.AddrInfo
open Mlibc Mlibc.Services Mlibc.Hosts

/-! ## The code -/

/-- `struct addrinfo` as far as getaddrinfo looks at it. -/
structure Hints where
  flags : Nat
  family : Int
  socktype : Int
  protocol : Int
  deriving DecidableEq, Repr

/-- An address found: family and bytes (include/mlibc/lookup.hpp L15-21). -/
abbrev Found2 := Nat × List Nat

/-- The outcome of a lookup: the negative of the error code, or addresses (none: the count is 0) and the canonical name (empty: not set). -/
inductive Lookup where
  | err (code : Nat)
  | found (addrs : List Found2) (canon : List Nat)
  deriving DecidableEq, Repr

/-- lookup.cpp L563-619 `lookup_name_ip`; the error is EAI_NONAME. -/
def lookupIp (pton : Pton) (name : List Nat) (family : Int) : Lookup :=
  if family = 2 then
    match pton 2 name with
    | none => .err 6
    | some a => .found [(2, a)] []
  else if family = 10 then
    match pton 10 name with
    | none => .err 6
    | some a => .found [(10, a)] []
  else
    match pton 2 name with
    | some a => .found [(2, a)] []
    | none =>
      match pton 10 name with
      | none => .err 6
      | some a => .found [(10, a)] []

/-- lookup.cpp L520-561 `lookup_name_null`. The bytes of INADDR_LOOPBACK (0x7f000001, abis/linux/in.h L109) are those in memory, on a little-endian
machine. -/
def lookupNull (passive : Bool) (family : Int) : List Found2 :=
  if passive then
    (if family ≠ 10 then [(2, [0, 0, 0, 0])] else []) ++ (if family ≠ 2 then [(10, List.replicate 16 0)] else [])
  else
    (if family ≠ 10 then [(2, [1, 0, 0, 127])] else []) ++ (if family ≠ 2 then [(10, List.replicate 15 0 ++ [1])] else [])

/-- `struct ai_buf` (include/mlibc/lookup.hpp L39-45): the element and its address. `next` is the index of the element that `ai_next` points to. The port is
the number that the two bytes stand for in network byte order. -/
structure Ai where
  family : Nat
  socktype : Int
  protocol : Nat
  flags : Nat
  port : Nat
  addr : List Nat
  canon : Option (List Nat)
  next : Option Nat
  deriving DecidableEq, Repr

/-- `calloc`, L291. -/
def Ai.zero : Ai := ⟨0, 0, 0, 0, 0, [], none, none⟩

/-- netdb.cpp L299-330: element `k` of the array, for an address and a service; and the pointer of the element before it. -/
def setAi (flags : Nat) (canon : Option (List Nat)) (out : List Ai) (k : Nat) (a : Found2) (s : Serv) : List Ai :=
  let out := out.set k ⟨a.1, s.socktype, s.protocol, flags, (s.port % 65536).toNat, a.2.take (if a.1 = 2 then 4 else 16),
    (if k = 0 then canon else none), (out[k]?.getD Ai.zero).next⟩
  if k = 0 then out else out.modify (k - 1) (fun e => { e with next := some k })

/-- netdb.cpp L298-331: the inner loop; the array and `k`. -/
def servLoop (flags : Nat) (canon : Option (List Nat)) (a : Found2) : List Serv → List Ai → Nat → List Ai × Nat
  | [], out, k => (out, k)
  | s :: ss, out, k => servLoop flags canon a ss (setAi flags canon out k a s) (k + 1)

/-- netdb.cpp L297-332: the outer loop. -/
def addrLoop (flags : Nat) (canon : Option (List Nat)) (ss : List Serv) : List Found2 → List Ai → Nat → List Ai
  | [], out, _ => out
  | a :: as, out, k => addrLoop flags canon ss as (servLoop flags canon a ss out k).1 (servLoop flags canon a ss out k).2

/-- What getaddrinfo gives: an error code; the array whose first element `*res` points to. -/
inductive Ans where
  | err (code : Nat)
  | list (out : List Ai)
  deriving DecidableEq, Repr

/-- netdb.cpp L294-295, L313-314: the pointer to the canonical name in the first element. -/
def canonField (node : Option (List Nat)) (flags : Nat) (canon : List Nat) : Option (List Nat) :=
  match node with
  | none => none
  | some n =>
    let canon := if canon = [] ∧ flags.testBit 1 then n else canon
    if flags.testBit 1 ∧ canon ≠ [] then some canon else none

/-- netdb.cpp L291-340: the list for the addresses and the services that were found. -/
def build (node : Option (List Nat)) (flags : Nat) (canon : List Nat) (addrs : List Found2) (ss : List Serv) : List Ai :=
  let out := List.replicate (ss.length * addrs.length) Ai.zero
  let out := addrLoop flags (canonField node flags canon) ss addrs out 0
  if 0 < addrs.length ∧ 0 < ss.length then out.modify (addrs.length * ss.length - 1) (fun e => { e with next := none }) else out

/-- The world that getaddrinfo runs in. `configured`: the sysdep InetConfigured (IPv4, IPv6), or its error; `none` when there is no such sysdep.
`hosts` and `dns` are asked for a name and a family. -/
structure World where
  services : Option (List Nat)
  pton : Pton
  configured : Option (Except Nat (Bool × Bool))
  hosts : List Nat → Int → Lookup
  dns : List Nat → Int → Lookup

/-- netdb.cpp L243-262: AI_ADDRCONFIG; an error code or the family. -/
def addrConfig (w : World) (flags : Nat) (family : Int) : Except Nat Int :=
  if flags.testBit 5 then
    match w.configured with
    | none => .error 9
    | some (.error _) => .error 9
    | some (.ok (v4, v6)) =>
      if !v4 && !v6 then .error 6
      else if v4 != v6 then .ok (if v4 then 2 else 10)
      else .ok family
  else .ok family

/-- netdb.cpp L269-289: the addresses, with the canonical name, or the error. -/
def addresses (w : World) (node : Option (List Nat)) (flags : Nat) (family : Int) : Lookup :=
  match node with
  | none => if flags.testBit 2 then .err 6 else .found (lookupNull (flags.testBit 0) family) []
  | some n =>
    let r : Lookup :=
      match lookupIp w.pton n family with
      | .found (a :: as) c => Lookup.found (a :: as) c
      | _ =>
        if flags.testBit 2 then .err 6
        else
          match w.hosts n family with
          | .found (a :: as) c => .found (a :: as) c
          | _ => w.dns n family
    match r with
    | .err e => .err e
    | .found [] _ => .err 6
    | .found as c => .found as c

/-- netdb.cpp L231-240: the checks on the hints. -/
def checkHints (node : Option (List Nat)) (h : Hints) : Option Nat :=
  if h.flags &&& 127 ≠ h.flags then some 2
  else if h.flags.testBit 1 ∧ node = none then some 2
  else if h.family ≠ 2 ∧ h.family ≠ 10 ∧ h.family ≠ 0 then some 4
  else none

/-- netdb.cpp L219-341 `getaddrinfo`. Without hints the flags are AI_V4MAPPED and AI_ADDRCONFIG (L224). -/
def getaddrinfo (w : World) (node service : Option (List Nat)) (hints : Option Hints) : Res Ans :=
  if node = none ∧ service = none then .ok (.err 6)
  else
    let h := hints.getD ⟨40, 0, 0, 0⟩
    match hints.bind (checkHints node) with
    | some e => .ok (.err e)
    | none =>
      match addrConfig w h.flags h.family with
      | .error e => .ok (.err e)
      | .ok family =>
        (lookupByName w.services service h.protocol h.socktype (h.flags.testBit 6)).bind fun
          | .err e => .ok (.err e)
          | .found ss =>
            match addresses w node h.flags family with
            | .err e => .ok (.err e)
            | .found as c => .ok (.list (build node h.flags c as ss))

/-- The caller follows the list from the first element on. `ub`: a pointer to no element. -/
def follow (out : List Ai) : Nat → Nat → Res (List Ai)
  | 0, _ => .ub
  | fuel + 1, k =>
    match out[k]? with
    | none => .ub
    | some e =>
      match e.next with
      | none => .ok [e]
      | some j => (follow out fuel j).bind fun l => .ok (e :: l)

/-- What getnameinfo gives: an error code, or the texts written for the host and the service (`none`: not asked for). -/
inductive Names where
  | err (code : Nat)
  | names (host serv : Option (List Nat))
  deriving DecidableEq, Repr

/-- The reverse lookups: bytes of the address, family, room; and inet_ntop (C49), `none` when the text does not fit. -/
structure World2 where
  services : Option (List Nat)
  hosts : List Nat → Nat → Nat → Host
  dns : List Nat → Nat → Nat → Host
  ntop : Nat → List Nat → Nat → Option (List Nat)

/-- netdb.cpp L376-402: the host. `room` is `none` when `host` is null or its length 0. The error of inet_ntop is ENOSPC, as the family is known.
EAI_OVERFLOW (10) is the only error of the lookups; others of lookup_addr_dns are not modelled. -/
def hostText (w : World2) (family : Nat) (addr : List Nat) (flags : Nat) : Option Nat → Except Nat (Option (List Nat))
  | none => .ok none
  | some room =>
    let res := if flags.testBit 1 then .missing else w.hosts addr family room
    let res := if ¬ flags.testBit 1 ∧ res = .missing then w.dns addr family room else res
    match res with
    | .name n => .ok (some n)
    | .overflow => .error 10
    | .missing =>
      if flags.testBit 2 then .error 6
      else
        match w.ntop family addr room with
        | none => .error 10
        | some t => .ok (some t)

/-- netdb.cpp L404-421: the service. NI_NUMERICSERV is 2 (include/netdb.h L26), NI_DGRAM 0x10. -/
def servText (w : World2) (port flags : Nat) : Option Nat → Res (Except Nat (Option (List Nat)))
  | none => .ok (.ok none)
  | some room =>
    (if flags.testBit 1 then .ok none
      else getservbyport w.services port (some (if flags.testBit 4 then [117, 100, 112] else [116, 99, 112]))).bind fun e =>
      let text := match e with
        | none => Db.dec port
        | some e => e.name
      if text.length + 1 > room then .ok (.error 5) else .ok (.ok (some text))

/-- netdb.cpp L347-424 `getnameinfo`, for an address of `family` with its bytes and its port (in host byte order), of `len` bytes. The sizes of
sockaddr_in and sockaddr_in6 are 16 and 28. -/
def getnameinfo (w : World2) (family : Nat) (addr : List Nat) (port len : Nat) (host serv : Option Nat) (flags : Nat) : Res Names :=
  if family = 2 ∧ 16 ≤ len ∨ family = 10 ∧ 28 ≤ len then
    match hostText w family addr flags host with
    | .error e => .ok (.err e)
    | .ok h =>
      (servText w port flags serv).bind fun
        | .error e => .ok (.err e)
        | .ok s => .ok (.names h s)
  else .ok (.err 4)

/-- `struct hostent`. -/
structure Hostent where
  name : List Nat
  addrtype : Nat
  addrs : List (List Nat)
  deriving DecidableEq, Repr

/-- netdb.cpp L438-508 `gethostbyname`, without the aliases and the memory of the answer before. -/
def gethostbyname (w : World) (name : List Nat) : Option Hostent :=
  let r : Lookup :=
    match lookupIp w.pton name 2 with
    | .found (a :: as) c => .found (a :: as) c
    | _ =>
      match w.hosts name 0 with
      | .found (a :: as) c => .found (a :: as) c
      | _ => w.dns name 0
  match r with
  | .err _ => none
  | .found [] _ => none
  | .found (a :: as) c =>
    if a.1 ≠ 2 ∧ a.1 ≠ 10 then none
    else
      some ⟨if c = [] then name else c, a.1,
        ((a :: as).filter (fun b => b.1 == a.1)).map (fun b => b.2.take (if a.1 = 2 then 4 else 16))⟩

/-! ## Specification -/

/-- The hints are acceptable: known flags only, AI_CANONNAME only with a node, and a known family. -/
def GoodHints (node : Option (List Nat)) (h : Hints) : Prop :=
  h.flags < 128 ∧ (h.flags.testBit 1 = true → node ≠ none) ∧ (h.family = 0 ∨ h.family = 2 ∨ h.family = 10)

/-- The family to look for. With AI_ADDRCONFIG, only families for which an address is configured count. -/
def Effective (w : World) (flags : Nat) (family fam : Int) : Prop :=
  (flags.testBit 5 = false ∧ fam = family) ∨
  (flags.testBit 5 = true ∧ w.configured = some (.ok (true, true)) ∧ fam = family) ∨
  (flags.testBit 5 = true ∧ w.configured = some (.ok (true, false)) ∧ (family = 0 ∨ family = 2) ∧ fam = 2) ∨
  (flags.testBit 5 = true ∧ w.configured = some (.ok (false, true)) ∧ (family = 0 ∨ family = 10) ∧ fam = 10)

/-- The addresses a text stands for by itself. -/
def literal (pton : Pton) (text : List Nat) (fam : Int) : Option Found2 :=
  match (if fam = 10 then none else pton 2 text) with
  | some a => some (2, a)
  | none => (if fam = 2 then none else pton 10 text).map (fun a => (10, a))

/-- Nothing is found. -/
def Lookup.Nothing : Lookup → Prop
  | .err _ => True
  | .found as _ => as = []

/-- The addresses of a node, with the canonical name: a literal address stands for itself; otherwise, unless AI_NUMERICHOST is given, the name is
looked up in the hosts file, and by DNS when it is not there. -/
inductive Resolves (w : World) (flags : Nat) (fam : Int) : Option (List Nat) → List Found2 → List Nat → Prop
  | literal (n : List Nat) (a : Found2) : literal w.pton n fam = some a → Resolves w flags fam (some n) [a] []
  | hosts (n : List Nat) (as : List Found2) (c : List Nat) : AddrInfo.literal w.pton n fam = none → flags.testBit 2 = false →
      w.hosts n fam = .found as c → as ≠ [] → Resolves w flags fam (some n) as c
  | dns (n : List Nat) (as : List Found2) (c : List Nat) : AddrInfo.literal w.pton n fam = none → flags.testBit 2 = false →
      (w.hosts n fam).Nothing → w.dns n fam = .found as c → as ≠ [] → Resolves w flags fam (some n) as c
  | any4 : flags.testBit 2 = false → flags.testBit 0 = true → fam = 2 → Resolves w flags fam none [(2, [0, 0, 0, 0])] []
  | any6 : flags.testBit 2 = false → flags.testBit 0 = true → fam = 10 → Resolves w flags fam none [(10, List.replicate 16 0)] []
  | any : flags.testBit 2 = false → flags.testBit 0 = true → fam = 0 →
      Resolves w flags fam none [(2, [0, 0, 0, 0]), (10, List.replicate 16 0)] []
  | loopback6 : flags.testBit 2 = false → flags.testBit 0 = false → fam = 10 → Resolves w flags fam none [(10, List.replicate 15 0 ++ [1])] []

/-- One entry of the answer: without the pointer. -/
structure Info where
  family : Nat
  socktype : Int
  protocol : Nat
  flags : Nat
  port : Nat
  addr : List Nat
  canon : Option (List Nat)
  deriving DecidableEq, Repr

/-- What the caller sees of an element. -/
def Ai.info (a : Ai) : Info := ⟨a.family, a.socktype, a.protocol, a.flags, a.port, a.addr, a.canon⟩

/-- The canonical name goes to the first entry. -/
def withCanon (canon : Option (List Nat)) : List Info → List Info
  | [] => []
  | i :: is => { i with canon := canon } :: is

/-- All pairs of an address and a service, the addresses in the outer loop. -/
def pairs (flags : Nat) (as : List Found2) (ss : List Serv) : List Info :=
  as.flatMap (fun a => ss.map (fun s => ⟨a.1, s.socktype, s.protocol, flags, (s.port % 65536).toNat, a.2.take (if a.1 = 2 then 4 else 16), none⟩))

/-- The canonical name, if AI_CANONNAME asks for it: the one found, or else the name asked for (which is not empty). -/
def canonOf (node : Option (List Nat)) (flags : Nat) (found : List Nat) : Option (List Nat) :=
  if flags.testBit 1 then (if found = [] then node else some found) else none

/-! ## Proofs -/

theorem modify_self {α : Type} (l : List α) (i : Nat) (f : α → α) (e : α) (h : l[i]? = some e) : (l.modify i f)[i]? = some (f e) := by
  rw [List.getElem?_modify, h]
  simp

theorem modify_ne {α : Type} (l : List α) (i j : Nat) (f : α → α) (h : i ≠ j) : (l.modify i f)[j]? = l[j]? := by
  rw [List.getElem?_modify]
  cases l[j]? <;> simp [h]

/-- The first `k` elements are made and linked; the others are still zero. -/
structure Made (flags : Nat) (canon : Option (List Nat)) (n : Nat) (done : List Info) (out : List Ai) (k : Nat) : Prop where
  len : out.length = n
  count : done.length = k
  le : k ≤ n
  info : ∀ i < k, ∃ a, out[i]? = some a ∧ some a.info = (withCanon canon done)[i]? ∧ a.next = (if i + 1 < k then some (i + 1) else none)
  rest : ∀ i, k ≤ i → i < n → out[i]? = some Ai.zero

theorem withCanon_append (canon : Option (List Nat)) (l : List Info) (i : Info) :
    withCanon canon (l ++ [i]) = if l = [] then [{ i with canon := canon }] else withCanon canon l ++ [i] := by
  cases l with
  | nil => rfl
  | cons a l => simp [withCanon]

theorem withCanon_length (canon : Option (List Nat)) (l : List Info) : (withCanon canon l).length = l.length := by
  cases l <;> simp [withCanon]

theorem setAi_made (flags : Nat) (canon : Option (List Nat)) (n : Nat) (done : List Info) (out : List Ai) (k : Nat) (a : Found2) (s : Serv)
    (h : Made flags canon n done out k) (hk : k < n) :
    Made flags canon n (done ++ [⟨a.1, s.socktype, s.protocol, flags, (s.port % 65536).toNat, a.2.take (if a.1 = 2 then 4 else 16), none⟩])
      (setAi flags canon out k a s) (k + 1) := by
  have hz : out[k]? = some Ai.zero := h.rest k (Nat.le_refl k) hk
  have hlen := h.len
  have hcount := h.count
  unfold setAi
  rw [hz]
  dsimp only [Option.getD_some, Ai.zero]
  by_cases h0 : k = 0
  · have hd : done = [] := List.length_eq_zero_iff.1 (by omega)
    subst hd
    simp only [h0, if_true]
    subst h0
    constructor
    · rw [List.length_set]; exact hlen
    · rfl
    · omega
    · intro i hi
      have : i = 0 := by omega
      subst this
      refine ⟨_, List.getElem?_set_self (by omega), ?_, ?_⟩
      · rfl
      · rfl
    · intro i hi1 hi2
      rw [List.getElem?_set_ne (by omega)]
      exact h.rest i (by omega) hi2
  · simp only [if_neg h0]
    have hdne : done ≠ [] := by rintro rfl; simp at hcount; omega
    constructor
    · rw [List.length_modify, List.length_set]; exact hlen
    · simp [hcount]
    · omega
    · intro i hi
      rw [withCanon_append, if_neg hdne]
      by_cases hik : i = k
      · subst hik
        rw [modify_ne _ _ _ _ (by omega)]
        refine ⟨_, List.getElem?_set_self (by omega), ?_, ?_⟩
        · rw [List.getElem?_append_right (by rw [withCanon_length]; omega), withCanon_length, hcount]
          rw [Nat.sub_self]
          rfl
        · exact (if_neg (Nat.lt_irrefl _)).symm
      · obtain ⟨e, he1, he2, he3⟩ := h.info i (by omega)
        rw [List.getElem?_append_left (by rw [withCanon_length]; omega)]
        by_cases hik1 : i = k - 1
        · refine ⟨{ e with next := some k }, ?_, he2, ?_⟩
          · subst hik1
            exact modify_self _ _ _ _ (by rw [List.getElem?_set_ne (by omega), he1])
          · rw [if_pos (by omega), show i + 1 = k from by omega]
        · refine ⟨e, ?_, he2, ?_⟩
          · rw [modify_ne _ _ _ _ (by omega), List.getElem?_set_ne (by omega), he1]
          · rw [he3, if_pos (by omega), if_pos (by omega)]
    · intro i hi1 hi2
      rw [modify_ne _ _ _ _ (by omega), List.getElem?_set_ne (by omega)]
      exact h.rest i (by omega) hi2

theorem servLoop_made (flags : Nat) (canon : Option (List Nat)) (n : Nat) (a : Found2) (ss : List Serv) (done : List Info) (out : List Ai) (k : Nat)
    (h : Made flags canon n done out k) (hk : k + ss.length ≤ n) :
    Made flags canon n (done ++ ss.map (fun s => ⟨a.1, s.socktype, s.protocol, flags, (s.port % 65536).toNat, a.2.take (if a.1 = 2 then 4 else 16), none⟩))
      (servLoop flags canon a ss out k).1 (k + ss.length) ∧ (servLoop flags canon a ss out k).2 = k + ss.length := by
  induction ss generalizing done out k with
  | nil => simpa [servLoop] using h
  | cons s ss ih =>
    simp only [List.length_cons] at hk
    have h1 := setAi_made flags canon n done out k a s h (by omega)
    have h2 := ih _ _ _ h1 (by omega)
    rw [servLoop, List.length_cons, List.map_cons]
    rw [show k + (ss.length + 1) = k + 1 + ss.length from by omega]
    refine ⟨?_, h2.2⟩
    have := h2.1
    rw [List.append_assoc] at this
    exact this

theorem addrLoop_made (flags : Nat) (canon : Option (List Nat)) (n : Nat) (ss : List Serv) (as : List Found2) (done : List Info) (out : List Ai) (k : Nat)
    (h : Made flags canon n done out k) (hk : k + ss.length * as.length ≤ n) :
    Made flags canon n (done ++ pairs flags as ss) (addrLoop flags canon ss as out k) (k + ss.length * as.length) := by
  induction as generalizing done out k with
  | nil => simpa [addrLoop, pairs] using h
  | cons a as ih =>
    rw [List.length_cons, Nat.mul_add, Nat.mul_one] at hk
    obtain ⟨h1, h2⟩ := servLoop_made flags canon n a ss done out k h (by omega)
    rw [addrLoop, h2]
    have := ih _ _ _ h1 (by omega)
    rw [List.append_assoc] at this
    rw [List.length_cons, Nat.mul_add, Nat.mul_one, show k + (ss.length * as.length + ss.length) = k + ss.length + ss.length * as.length from by omega]
    exact this

/-- Following the list of a finished array gives all its elements. -/
theorem follow_made (flags : Nat) (canon : Option (List Nat)) (n : Nat) (done : List Info) (out : List Ai) (h : Made flags canon n done out n)
    (k fuel : Nat) (hk : k < n) (hf : n ≤ k + fuel) :
    ∃ l, follow out fuel k = .ok l ∧ l.map Ai.info = (withCanon canon done).drop k := by
  induction fuel generalizing k with
  | zero => omega
  | succ fuel ih =>
    obtain ⟨a, h1, h2, h3⟩ := h.info k hk
    rw [follow, h1]
    dsimp only
    rw [h3]
    have hlen : (withCanon canon done).length = n := by rw [withCanon_length, h.count]
    have hdrop : (withCanon canon done).drop k = a.info :: (withCanon canon done).drop (k + 1) := by
      have hget : (withCanon canon done)[k]? = some a.info := h2.symm
      rw [List.getElem?_eq_some_iff] at hget
      obtain ⟨hlt, hge⟩ := hget
      rw [List.drop_eq_getElem_cons hlt, hge]
    by_cases hl : k + 1 < n
    · rw [if_pos hl]
      obtain ⟨l, hl1, hl2⟩ := ih (k + 1) hl (by omega)
      dsimp only
      rw [hl1]
      refine ⟨a :: l, rfl, ?_⟩
      rw [List.map_cons, hl2, hdrop]
    · rw [if_neg hl]
      refine ⟨[a], rfl, ?_⟩
      rw [hdrop, List.drop_eq_nil_of_le (by omega)]
      rfl

theorem pairs_length (flags : Nat) (as : List Found2) (ss : List Serv) : (pairs flags as ss).length = ss.length * as.length := by
  unfold pairs
  induction as with
  | nil => simp
  | cons a as ih => rw [List.flatMap_cons, List.length_append, ih, List.length_map, List.length_cons, Nat.mul_add]; omega

theorem canonField_eq (node : Option (List Nat)) (flags : Nat) (canon : List Nat) (hn : node ≠ some [])
    (hc : flags.testBit 1 = true → node ≠ none) : canonField node flags canon = canonOf node flags canon := by
  unfold canonField canonOf
  by_cases hb : flags.testBit 1 = true
  · cases node with
    | none => exact absurd rfl (hc hb)
    | some n =>
      have hnn : n ≠ [] := fun h => hn (by rw [h])
      by_cases hcn : canon = []
      · simp [hb, hcn, hnn]
      · simp [hb, hcn]
  · cases node <;> simp [hb]

/-- The list that getaddrinfo builds. -/
theorem build_list (node : Option (List Nat)) (flags : Nat) (canon : List Nat) (as : List Found2) (ss : List Serv) (ha : as ≠ []) (hs : ss ≠ []) :
    ∃ l, follow (build node flags canon as ss) (ss.length * as.length) 0 = .ok l ∧
      l.map Ai.info = withCanon (canonField node flags canon) (pairs flags as ss) := by
  have hap := List.length_pos_iff.2 ha
  have hsp := List.length_pos_iff.2 hs
  have hn : 0 < ss.length * as.length := Nat.mul_pos hsp hap
  unfold build
  dsimp only
  rw [if_pos ⟨hap, hsp⟩]
  generalize canonField node flags canon = field
  have h0 : Made flags field (ss.length * as.length) [] (List.replicate (ss.length * as.length) Ai.zero) 0 := by
    constructor
    · simp
    · rfl
    · omega
    · intro i hi; omega
    · intro i _ hi
      rw [List.getElem?_replicate, if_pos hi]
  have h1 := addrLoop_made flags field _ ss as [] _ 0 h0 (by omega)
  rw [List.nil_append, Nat.zero_add] at h1
  have h2 : Made flags field (ss.length * as.length) (pairs flags as ss)
      ((addrLoop flags field ss as (List.replicate (ss.length * as.length) Ai.zero) 0).modify (as.length * ss.length - 1) (fun e => { e with next := none }))
      (ss.length * as.length) := by
    have hlen := h1.len
    constructor
    · rw [List.length_modify]; exact hlen
    · exact h1.count
    · omega
    · intro i hi
      obtain ⟨a, e1, e2, e3⟩ := h1.info i hi
      by_cases hil : as.length * ss.length - 1 = i
      · subst hil
        refine ⟨_, modify_self _ _ _ _ e1, e2, ?_⟩
        have := Nat.mul_comm as.length ss.length
        rw [if_neg (by omega)]
      · rw [modify_ne _ _ _ _ hil]
        exact ⟨a, e1, e2, e3⟩
    · intro i hi1 hi2; omega
  obtain ⟨l, hl1, hl2⟩ := follow_made flags field _ _ _ h2 0 (ss.length * as.length) hn (by omega)
  exact ⟨l, hl1, hl2⟩


theorem lookupIp_eq (pton : Pton) (n : List Nat) (fam : Int) :
    lookupIp pton n fam = match literal pton n fam with
      | some a => .found [a] []
      | none => .err 6 := by
  unfold lookupIp literal
  by_cases h2 : fam = 2
  · subst h2
    cases pton 2 n <;> simp
  · by_cases h10 : fam = 10
    · subst h10
      cases pton 10 n <;> simp
    · cases pton 2 n <;> cases pton 10 n <;> simp [h2, h10]

theorem addresses_resolves (w : World) (flags : Nat) (fam : Int) (node : Option (List Nat)) (as : List Found2) (c : List Nat)
    (h : Resolves w flags fam node as c) : addresses w node flags fam = .found as c ∧ as ≠ [] := by
  cases h with
  | literal n a h => refine ⟨?_, by simp⟩; simp only [addresses, lookupIp_eq, h]
  | hosts n as c h1 h2 h3 h4 =>
    refine ⟨?_, h4⟩
    cases as with
    | nil => exact absurd rfl h4
    | cons a as => simp only [addresses, lookupIp_eq, h1, h2, h3]; rfl
  | dns n as c h1 h2 h3 h4 h5 =>
    refine ⟨?_, h5⟩
    cases as with
    | nil => exact absurd rfl h5
    | cons a as =>
      simp only [addresses, lookupIp_eq, h1, h2, h4]
      cases hh : w.hosts n fam with
      | err e => rfl
      | found bs d =>
        rw [hh] at h3
        have : bs = [] := h3
        subst this
        rfl
  | any4 h1 h2 h3 => subst h3; simp [addresses, lookupNull, h1, h2]
  | any6 h1 h2 h3 => subst h3; simp [addresses, lookupNull, h1, h2]
  | any h1 h2 h3 => subst h3; simp [addresses, lookupNull, h1, h2]
  | loopback6 h1 h2 h3 => subst h3; simp [addresses, lookupNull, h1, h2]

theorem addrConfig_effective (w : World) (flags : Nat) (family fam : Int) (h : Effective w flags family fam) :
    addrConfig w flags family = .ok fam := by
  unfold addrConfig
  rcases h with ⟨h1, h2⟩ | ⟨h1, h2, h3⟩ | ⟨h1, h2, _, h3⟩ | ⟨h1, h2, _, h3⟩
  · simp [h1, h2]
  · simp [h1, h2, h3]
  · simp [h1, h2, h3]
  · simp [h1, h2, h3]

theorem and_mask (f : Nat) : f &&& 127 = f ↔ f < 128 := by
  rw [show 127 = 2 ^ 7 - 1 from rfl, Nat.and_two_pow_sub_one_eq_mod]
  omega

theorem checkHints_good (node : Option (List Nat)) (h : Hints) (hg : GoodHints node h) : checkHints node h = none := by
  obtain ⟨h1, h2, h3⟩ := hg
  unfold checkHints
  rw [if_neg (by rw [Ne, Decidable.not_not]; exact (and_mask h.flags).2 h1), if_neg (fun hc => h2 hc.1 hc.2), if_neg (by omega)]

/-- **C86, partial.** When services and addresses are found, following the list from the first element gives exactly one entry for each pair of an
address and a service, in order, with their family, address, socket type, protocol and port; the canonical name is in the first entry only. Without hints,
the flags are AI_V4MAPPED and AI_ADDRCONFIG (8 and 32). Missing: the IPv4 loopback address, AI_ADDRCONFIG for a family that is not configured, a
service that is not found, AI_V4MAPPED; see the violations below. -/
theorem getaddrinfo_partial (w : World) (node service : Option (List Nat)) (hints : Option Hints) (h : Hints)
    (hh : hints = some h ∨ hints = none ∧ h = ⟨40, 0, 0, 0⟩) (hq : node ≠ none ∨ service ≠ none) (hnode : node ≠ some []) (hg : GoodHints node h)
    (fam : Int) (hf : Effective w h.flags h.family fam) (ss : List Serv)
    (hs : lookupByName w.services service h.protocol h.socktype (h.flags.testBit 6) = .ok (.found ss)) (hss : ss ≠ [])
    (as : List Found2) (c : List Nat) (ha : Resolves w h.flags fam node as c) :
    ∃ out l, getaddrinfo w node service hints = .ok (.list out) ∧ follow out (ss.length * as.length) 0 = .ok l ∧
      l.map Ai.info = withCanon (canonOf node h.flags c) (pairs h.flags as ss) := by
  obtain ⟨h1, h2⟩ := addresses_resolves w h.flags fam node as c ha
  obtain ⟨l, hl1, hl2⟩ := build_list node h.flags c as ss h2 hss
  refine ⟨build node h.flags c as ss, l, ?_, hl1, ?_⟩
  · unfold getaddrinfo
    rw [if_neg (by rintro ⟨e1, e2⟩; rcases hq with e | e; exact e e1; exact e e2)]
    have hget : hints.getD ⟨40, 0, 0, 0⟩ = h := by
      rcases hh with e | ⟨e1, e2⟩
      · rw [e]; rfl
      · rw [e1, e2]; rfl
    have hbind : hints.bind (checkHints node) = none := by
      rcases hh with e | ⟨e1, e2⟩
      · rw [e]; exact checkHints_good node h hg
      · rw [e1]; rfl
    dsimp only
    rw [hget, hbind]
    dsimp only
    rw [addrConfig_effective w h.flags h.family fam hf]
    dsimp only
    rw [hs]
    show (match addresses w node h.flags fam with
      | .err e => Res.ok (Ans.err e)
      | .found as c => Res.ok (Ans.list (build node h.flags c as ss))) = _
    rw [h1]
  · rw [hl2, canonField_eq node h.flags c hnode hg.2.1]

/-- **C86**: the errors that are found before anything is looked up. -/
theorem getaddrinfo_bad (w : World) (node service : Option (List Nat)) (h : Hints) :
    getaddrinfo w none none (some h) = .ok (.err 6) ∧ getaddrinfo w none none none = .ok (.err 6) ∧
    ((node ≠ none ∨ service ≠ none) → 128 ≤ h.flags → getaddrinfo w node service (some h) = .ok (.err 2)) ∧
    (service ≠ none → h.flags.testBit 1 = true → getaddrinfo w none service (some h) = .ok (.err 2)) ∧
    ((node ≠ none ∨ service ≠ none) → h.flags < 128 → (h.flags.testBit 1 = true → node ≠ none) → h.family ≠ 0 → h.family ≠ 2 → h.family ≠ 10 →
      getaddrinfo w node service (some h) = .ok (.err 4)) := by
  have key : ∀ node e, (node ≠ none ∨ service ≠ none) → checkHints node h = some e → getaddrinfo w node service (some h) = .ok (.err e) := by
    intro node e hq hc
    unfold getaddrinfo
    rw [if_neg (by rintro ⟨e1, e2⟩; rcases hq with e | e; exact e e1; exact e e2)]
    dsimp only
    rw [show (some h).bind (checkHints node) = some e from hc]
  refine ⟨rfl, rfl, ?_, ?_, ?_⟩
  · intro hq hf
    apply key node 2 hq
    unfold checkHints
    rw [if_pos (fun e => absurd ((and_mask h.flags).1 e) (by omega))]
  · intro hq hf
    apply key none 2 (Or.inr hq)
    unfold checkHints
    by_cases hm : h.flags &&& 127 = h.flags
    · rw [if_neg (by simpa using hm), if_pos ⟨hf, rfl⟩]
    · rw [if_pos hm]
  · intro hq hf hc h0 h2 h10
    apply key node 4 hq
    unfold checkHints
    rw [if_neg (by rw [Ne, Decidable.not_not]; exact (and_mask h.flags).2 hf), if_neg (fun hc' => hc hc'.1 hc'.2), if_pos ⟨h2, h10, h0⟩]

/-- **C86**: the errors when no address is found: EAI_NONAME under AI_NUMERICHOST, whatever the hosts file and DNS would say; else the error of DNS, or
EAI_NONAME. -/
theorem getaddrinfo_none (w : World) (n : List Nat) (service : Option (List Nat)) (h : Hints) (hg : GoodHints (some n) h)
    (fam : Int) (hf : Effective w h.flags h.family fam) (ss : List Serv)
    (hs : lookupByName w.services service h.protocol h.socktype (h.flags.testBit 6) = .ok (.found ss)) (hl : literal w.pton n fam = none) :
    (h.flags.testBit 2 = true → getaddrinfo w (some n) service (some h) = .ok (.err 6)) ∧
    (h.flags.testBit 2 = false → (w.hosts n fam).Nothing → ∀ e, w.dns n fam = .err e → getaddrinfo w (some n) service (some h) = .ok (.err e)) ∧
    (h.flags.testBit 2 = false → (w.hosts n fam).Nothing → ∀ c, w.dns n fam = .found [] c → getaddrinfo w (some n) service (some h) = .ok (.err 6)) := by
  have key : ∀ e, addresses w (some n) h.flags fam = .err e → getaddrinfo w (some n) service (some h) = .ok (.err e) := by
    intro e he
    unfold getaddrinfo
    rw [if_neg (by rintro ⟨e1, e2⟩; cases e1)]
    dsimp only
    rw [show (some h).bind (checkHints (some n)) = none from checkHints_good (some n) h hg]
    dsimp only [Option.getD_some]
    rw [addrConfig_effective w h.flags h.family fam hf]
    dsimp only
    rw [hs]
    show (match addresses w (some n) h.flags fam with
      | .err e => Res.ok (Ans.err e)
      | .found as c => Res.ok (Ans.list (build (some n) h.flags c as ss))) = _
    rw [he]
  have hip : lookupIp w.pton n fam = .err 6 := by rw [lookupIp_eq, hl]
  refine ⟨?_, ?_, ?_⟩
  · intro hb
    apply key
    simp only [addresses, hip, hb]
    rfl
  · intro hb hn e he
    apply key
    simp only [addresses, hip, hb, he]
    cases hh : w.hosts n fam with
    | err e => rfl
    | found bs d =>
      rw [hh] at hn
      have : bs = [] := hn
      subst this
      rfl
  · intro hb hn c he
    apply key
    simp only [addresses, hip, hb, he]
    cases hh : w.hosts n fam with
    | err e => rfl
    | found bs d =>
      rw [hh] at hn
      have : bs = [] := hn
      subst this
      rfl

/-- **C86**: a literal IPv4 address and a decimal port, without further hints: one entry for TCP and one for UDP, whatever the services file, the hosts
file and DNS say. -/
theorem getaddrinfo_numeric (w : World) (n a ds : List Nat) (hn : n ≠ []) (hp : w.pton 2 n = some a) (ha : a.length = 4)
    (hne : ds ≠ []) (hd : ∀ c ∈ ds, 48 ≤ c ∧ c ≤ 57) (hv : ds.foldl (fun v c => 10 * v + (c - 48)) 0 ≤ 65535) :
    ∃ out l, getaddrinfo w (some n) (some ds) (some ⟨0, 0, 0, 0⟩) = .ok (.list out) ∧ follow out 2 0 = .ok l ∧
      l.map Ai.info = [⟨2, 1, 6, 0, ds.foldl (fun v c => 10 * v + (c - 48)) 0, a, none⟩, ⟨2, 2, 17, 0, ds.foldl (fun v c => 10 * v + (c - 48)) 0, a, none⟩] := by
  have h1 := (numeric_service w.services false ds hne hd hv).1
  have hlit : literal w.pton n 0 = some (2, a) := by simp [literal, hp]
  obtain ⟨out, l, e1, e2, e3⟩ := getaddrinfo_partial w (some n) (some ds) (some ⟨0, 0, 0, 0⟩) ⟨0, 0, 0, 0⟩ (Or.inl rfl) (Or.inl (by simp))
    (by simpa using hn) ⟨by decide, fun h => absurd h (by decide), Or.inl rfl⟩ 0 (Or.inl ⟨by decide, rfl⟩) _ h1 (by simp) [(2, a)] [] (.literal n (2, a) hlit)
  refine ⟨out, l, e1, e2, ?_⟩
  rw [e3]
  generalize ds.foldl (fun v c => 10 * v + (c - 48)) 0 = v at hv
  have hm : ((v : Int) % 65536).toNat = v := by omega
  have ht : a.take 4 = a := List.take_of_length_le (by omega)
  simp [pairs, withCanon, canonOf, hm, ht]

/-- The name that the hosts file, or else DNS, has for an address. -/
def nameOf (w : World2) (family : Nat) (addr : List Nat) (room : Nat) : Host :=
  if w.hosts addr family room = .missing then w.dns addr family room else w.hosts addr family room

/-- **C86** (the host of getnameinfo). Under NI_NUMERICHOST (2) it is the text of the address, whatever the names are. Otherwise it is the name in the hosts
file, or else that of DNS, or else the text of the address, unless NI_NAMEREQD (4) makes this the error EAI_NONAME. A text that does not fit is the error
EAI_OVERFLOW; an address that is too short or of another family is the error EAI_FAMILY. -/
theorem getnameinfo_host (w : World2) (family : Nat) (addr : List Nat) (port len room flags : Nat) :
    ((family = 2 → len < 16) → (family = 10 → len < 28) → ∀ host serv, getnameinfo w family addr port len host serv flags = .ok (.err 4)) ∧
    (family = 2 ∧ 16 ≤ len ∨ family = 10 ∧ 28 ≤ len →
      (flags.testBit 1 = true → flags.testBit 2 = false → ∀ t, w.ntop family addr room = some t →
        getnameinfo w family addr port len (some room) none flags = .ok (.names (some t) none)) ∧
      (flags.testBit 1 = false → ∀ n, nameOf w family addr room = .name n →
        getnameinfo w family addr port len (some room) none flags = .ok (.names (some n) none)) ∧
      (flags.testBit 1 = false → nameOf w family addr room = .overflow →
        getnameinfo w family addr port len (some room) none flags = .ok (.err 10)) ∧
      (flags.testBit 1 = false → nameOf w family addr room = .missing → flags.testBit 2 = true →
        getnameinfo w family addr port len (some room) none flags = .ok (.err 6)) ∧
      (flags.testBit 1 = false → nameOf w family addr room = .missing → flags.testBit 2 = false → ∀ t, w.ntop family addr room = some t →
        getnameinfo w family addr port len (some room) none flags = .ok (.names (some t) none)) ∧
      ((flags.testBit 1 = true ∨ nameOf w family addr room = .missing) → flags.testBit 2 = false → w.ntop family addr room = none →
        getnameinfo w family addr port len (some room) none flags = .ok (.err 10))) := by
  refine ⟨?_, ?_⟩
  · intro h1 h2 host serv
    unfold getnameinfo
    rw [if_neg (by omega)]
  · intro hf
    have key : getnameinfo w family addr port len (some room) none flags =
        (match hostText w family addr flags (some room) with
          | .error e => .ok (.err e)
          | .ok h => .ok (.names h none)) := by
      unfold getnameinfo
      rw [if_pos hf]
      rfl
    rw [key]
    have hnum : flags.testBit 1 = true → hostText w family addr flags (some room) =
        (if flags.testBit 2 then .error 6 else match w.ntop family addr room with
          | none => .error 10
          | some t => .ok (some t)) := by
      intro hb
      simp [hostText, hb]
    have hnam : flags.testBit 1 = false → hostText w family addr flags (some room) =
        (match nameOf w family addr room with
          | .name n => .ok (some n)
          | .overflow => .error 10
          | .missing => if flags.testBit 2 then .error 6 else match w.ntop family addr room with
            | none => .error 10
            | some t => .ok (some t)) := by
      intro hb
      simp [hostText, nameOf, hb]
    refine ⟨?_, ?_, ?_, ?_, ?_, ?_⟩
    · intro h1 h2 t ht
      rw [hnum h1, h2, ht]
      rfl
    · intro h1 n hn
      rw [hnam h1, hn]
    · intro h1 hn
      rw [hnam h1, hn]
    · intro h1 hn h2
      rw [hnam h1, hn, h2]
      rfl
    · intro h1 hn h2 t ht
      rw [hnam h1, hn, h2, ht]
      rfl
    · intro hn h2 ht
      cases h1 : flags.testBit 1 with
      | true =>
        rw [hnum h1, h2, ht]
        rfl
      | false =>
        rcases hn with h | h
        · rw [h1] at h; cases h
        · rw [hnam h1, h, h2, ht]
          rfl

/-- **C86, partial** (the service of getnameinfo). It is the name of the first entry of the services file with this port and the protocol tcp, or udp under
NI_DGRAM (16); or decimal digits, when there is none. Missing: here the flag 2 is not set, and with it the service is always decimal, although this flag is
NI_NUMERICHOST; a service that does not fit is EAI_MEMORY and not EAI_OVERFLOW. -/
theorem getnameinfo_serv_partial (w : World2) (ls : List (List Nat)) (hg : ∀ l ∈ ls, GoodPortLine l) (hw : w.services = some (Db.file ls))
    (family : Nat) (addr : List Nat) (port len room flags : Nat) (hf : family = 2 ∧ 16 ≤ len ∨ family = 10 ∧ 28 ≤ len)
    (h1 : 1 ≤ port) (h2 : port ≤ 65535) :
    (flags.testBit 1 = false → ∀ e, (ls.filterMap entry).find? (servesPort port (some (if flags.testBit 4 = true then udp else tcp))) = some e →
      e.name.length < room → getnameinfo w family addr port len none (some room) flags = .ok (.names none (some e.name))) ∧
    ((flags.testBit 1 = true ∨ (ls.filterMap entry).find? (servesPort port (some (if flags.testBit 4 = true then udp else tcp))) = none) →
      ∃ t, (∀ c ∈ t, 48 ≤ c ∧ c ≤ 57) ∧ Db.value t = port ∧
        (t.length < room → getnameinfo w family addr port len none (some room) flags = .ok (.names none (some t)))) := by
  have key : getnameinfo w family addr port len none (some room) flags =
      (servText w port flags (some room)).bind (fun
        | .error e => .ok (.err e)
        | .ok s => .ok (.names none s)) := by
    unfold getnameinfo
    rw [if_pos hf]
    rfl
  have hserv := getservbyport_partial ls hg port h1 h2 (some (if flags.testBit 4 = true then udp else tcp)) (by split <;> simp)
  have hpr : (if flags.testBit 4 = true then [117, 100, 112] else [116, 99, 112]) = (if flags.testBit 4 = true then udp else tcp) := rfl
  refine ⟨?_, ?_⟩
  · intro hb e he hr
    rw [key]
    unfold servText
    rw [if_neg (by simp [hb]), hpr, hw, hserv, he]
    show ((if e.name.length + 1 > room then Res.ok (Except.error 5) else Res.ok (Except.ok (some e.name))).bind _ : Res Names) = _
    rw [if_neg (by omega)]
    rfl
  · intro hb
    refine ⟨Db.dec port, Db.dec_digits port, Db.dec_value port, ?_⟩
    intro hr
    rw [key]
    unfold servText
    have : (if flags.testBit 1 = true then Res.ok none
      else getservbyport w.services port (some (if flags.testBit 4 = true then [117, 100, 112] else [116, 99, 112]))) = Res.ok none := by
      by_cases hb1 : flags.testBit 1 = true
      · rw [if_pos hb1]
      · rw [if_neg hb1]
        rcases hb with h | h
        · exact absurd h hb1
        · rw [hpr, hw, hserv, h]
          rfl
    rw [this]
    show ((if (Db.dec port).length + 1 > room then Res.ok (Except.error 5) else Res.ok (Except.ok (some (Db.dec port)))).bind _ : Res Names) = _
    rw [if_neg (by omega)]
    rfl

/-- **C86, partial** (gethostbyname). A literal IPv4 address stands for itself; otherwise the answer has exactly the addresses that the hosts file, or else
DNS, has for the name, when all are IPv4 addresses. Missing: names with IPv6 addresses, see below. -/
theorem gethostbyname_partial (w : World) (n : List Nat) :
    (∀ a, w.pton 2 n = some a → a.length = 4 → gethostbyname w n = some ⟨n, 2, [a]⟩) ∧
    (w.pton 2 n = none → ∀ as c, as ≠ [] → (∀ a ∈ as, a.1 = 2 ∧ a.2.length = 4) →
      (w.hosts n 0 = .found as c ∨ ((w.hosts n 0).Nothing ∧ w.dns n 0 = .found as c)) →
      gethostbyname w n = some ⟨if c = [] then n else c, 2, as.map (·.2)⟩) ∧
    (w.pton 2 n = none → (w.hosts n 0).Nothing → (w.dns n 0).Nothing → gethostbyname w n = none) := by
  have h4 : ∀ as : List Found2, (∀ a ∈ as, a.1 = 2 ∧ a.2.length = 4) → (as.filter (fun b => b.1 == 2)).map (fun b => b.2.take 4) = as.map (·.2) := by
    intro as
    induction as with
    | nil => intro _; rfl
    | cons a as ih =>
      intro h
      obtain ⟨ha1, ha2⟩ := h a (by simp)
      rw [List.filter_cons, if_pos (by simp [ha1]), List.map_cons, List.map_cons, ih (fun b hb => h b (by simp [hb])),
        List.take_of_length_le (by omega)]
  refine ⟨?_, ?_, ?_⟩
  · intro a ha hl
    have : a.take 4 = a := List.take_of_length_le (by omega)
    simp [gethostbyname, lookupIp, ha, this]
  · intro hp as c hne hall hh
    have hip : lookupIp w.pton n 2 = .err 6 := by simp [lookupIp, hp]
    cases as with
    | nil => exact absurd rfl hne
    | cons a as =>
      have hr : (match w.hosts n 0 with
        | .found (a :: as) c => Lookup.found (a :: as) c
        | _ => w.dns n 0) = .found (a :: as) c := by
        rcases hh with h | ⟨h1, h2⟩
        · rw [h]
        · cases hw : w.hosts n 0 with
          | err e => exact h2
          | found bs d =>
            rw [hw] at h1
            have : bs = [] := h1
            subst this
            exact h2
      unfold gethostbyname
      dsimp only
      rw [hip]
      dsimp only
      rw [hr]
      dsimp only
      have ha := (hall a (by simp)).1
      rw [ha, if_neg (by omega), if_pos rfl, h4 _ hall]
  · intro hp h1 h2
    have hip : lookupIp w.pton n 2 = .err 6 := by simp [lookupIp, hp]
    unfold gethostbyname
    dsimp only
    rw [hip]
    dsimp only
    cases hw : w.hosts n 0 with
    | err e =>
      cases hd : w.dns n 0 with
      | err e => rfl
      | found bs d => rw [hd] at h2; have : bs = [] := h2; subst this; rfl
    | found bs d =>
      rw [hw] at h1
      have : bs = [] := h1
      subst this
      cases hd : w.dns n 0 with
      | err e => rfl
      | found bs d => rw [hd] at h2; have : bs = [] := h2; subst this; rfl

/-! ## Examples and counterexamples -/

/-- A world for the examples: "http 80/tcp" in the services file; only the text "9.9.9.9" is an address; the hosts file has two addresses for "h" when any
family is asked for, first ::1, and the IPv4 one when that is asked for; DNS knows nothing. -/
def world : World where
  services := some (Db.file [[104, 116, 116, 112, 32, 56, 48, 47, 116, 99, 112]])
  pton := fun f s => if f = 2 ∧ s = [57, 46, 57, 46, 57, 46, 57] then some [9, 9, 9, 9] else none
  configured := some (.ok (true, false))
  hosts := fun n f =>
    if n = [104] then
      if f = 0 then .found [(10, List.replicate 15 0 ++ [1]), (2, [127, 0, 0, 1])] [104, 111]
      else if f = 2 then .found [(2, [127, 0, 0, 1])] [104, 111] else .found [] []
    else .found [] []
  dns := fun _ _ => .err 6

/-- The hypotheses of `getaddrinfo_partial` are met: "h", "http" with AI_CANONNAME. -/
example : ∃ out l, getaddrinfo world (some [104]) (some [104, 116, 116, 112]) (some ⟨2, 0, 0, 0⟩) = .ok (.list out) ∧ follow out 2 0 = .ok l ∧
    l.map Ai.info = [⟨10, 1, 6, 2, 80, List.replicate 15 0 ++ [1], some [104, 111]⟩, ⟨2, 1, 6, 2, 80, [127, 0, 0, 1], none⟩] := by
  obtain ⟨out, l, e1, e2, e3⟩ := getaddrinfo_partial world (some [104]) (some [104, 116, 116, 112]) (some ⟨2, 0, 0, 0⟩) ⟨2, 0, 0, 0⟩ (Or.inl rfl)
    (Or.inl (by decide)) (by decide) ⟨by decide, by decide, Or.inl rfl⟩ 0 (Or.inl ⟨by decide, rfl⟩)
    [⟨80, 6, 1, some [104, 116, 116, 112]⟩] (by decide +kernel) (by simp)
    [(10, List.replicate 15 0 ++ [1]), (2, [127, 0, 0, 1])] [104, 111] (.hosts _ _ _ (by decide +kernel) (by decide) (by decide +kernel) (by simp))
  exact ⟨out, l, e1, e2, by rw [e3]; decide +kernel⟩

/-- The hypotheses of `getaddrinfo_none` are met: "x" is not known. -/
example : getaddrinfo world (some [120]) none (some ⟨0, 0, 0, 0⟩) = .ok (.err 6) :=
  (getaddrinfo_none world [120] none ⟨0, 0, 0, 0⟩ ⟨by decide, by decide, Or.inl rfl⟩ 0 (Or.inl ⟨by decide, rfl⟩)
    [⟨0, 6, 1, none⟩, ⟨0, 17, 2, none⟩] (by decide +kernel) (by decide +kernel)).2.1 (by decide) rfl 6 rfl

/-- A world for getnameinfo: no services, no names. -/
def world2 : World2 := ⟨some (Db.file Services.sample), fun _ _ _ => .missing, fun _ _ _ => .missing, fun _ _ _ => some [49]⟩

/-- The hypotheses of `getnameinfo_serv_partial` are met: port 8080 under NI_DGRAM. -/
example : getnameinfo world2 2 [1, 2, 3, 4] 8080 16 none (some 10) 16 = .ok (.names none (some [104, 116, 116, 112])) :=
  (getnameinfo_serv_partial world2 Services.sample Services.sample_good rfl 2 [1, 2, 3, 4] 8080 16 10 16 (by decide) (by decide) (by decide)).1 (by decide)
    ⟨[104, 116, 116, 112], 8080, udp, []⟩ (by decide +kernel) (by decide)

/-- **C86 fails**: without a node, the loopback address is 1.0.0.127. -/
theorem loopback_violated : ∃ out l, getaddrinfo world none (some [56, 48]) (some ⟨0, 2, 1, 0⟩) = .ok (.list out) ∧ follow out 1 0 = .ok l ∧
    l.map Ai.info = [⟨2, 1, 6, 0, 80, [1, 0, 0, 127], none⟩] :=
  ⟨[⟨2, 1, 6, 0, 80, [1, 0, 0, 127], none, none⟩], [⟨2, 1, 6, 0, 80, [1, 0, 0, 127], none, none⟩], by decide +kernel, by decide +kernel, by decide⟩

/-- **C86 fails**: with AI_ADDRCONFIG and IPv4 alone configured, IPv4 addresses are given although IPv6 is asked for. -/
theorem addrconfig_violated : ∃ out l, getaddrinfo world (some [104]) (some [56, 48]) (some ⟨32, 10, 1, 0⟩) = .ok (.list out) ∧ follow out 1 0 = .ok l ∧
    l.map Ai.info = [⟨2, 1, 6, 32, 80, [127, 0, 0, 1], none⟩] :=
  ⟨[⟨2, 1, 6, 32, 80, [127, 0, 0, 1], none, none⟩], [⟨2, 1, 6, 32, 80, [127, 0, 0, 1], none, none⟩], by decide +kernel, by decide +kernel, by decide⟩

/-- **C86 fails**: for a service that is not in the services file, getaddrinfo succeeds, with a pointer to no element. -/
theorem unknown_service_violated : getaddrinfo world (some [104]) (some [120]) (some ⟨0, 0, 0, 0⟩) = .ok (.list []) ∧
    ∀ fuel, follow [] fuel 0 = .ub := by
  refine ⟨by decide +kernel, ?_⟩
  intro fuel
  cases fuel <;> rfl

/-- **C86 fails**: AI_V4MAPPED (8) does nothing: "h" has an IPv4 address only, and is not found when IPv6 addresses are asked for. -/
theorem v4mapped_violated : getaddrinfo world (some [104]) (some [56, 48]) (some ⟨8, 10, 1, 0⟩) = .ok (.err 6) ∧
    world.hosts [104] 2 = .found [(2, [127, 0, 0, 1])] [104, 111] := by
  decide +kernel

/-- **C86 fails**: under NI_NUMERICHOST alone, the service is numeric as well, although port 8080 has a name; and a service that does not fit is the error
EAI_MEMORY (5) and not EAI_OVERFLOW (10). -/
theorem numericserv_violated :
    getnameinfo world2 2 [1, 2, 3, 4] 8080 16 (some 20) (some 10) 18 = .ok (.names (some [49]) (some [56, 48, 56, 48])) ∧
    getnameinfo world2 2 [1, 2, 3, 4] 8080 16 (some 20) (some 10) 16 = .ok (.names (some [49]) (some [104, 116, 116, 112])) ∧
    getnameinfo world2 2 [1, 2, 3, 4] 8080 16 none (some 4) 16 = .ok (.err 5) := by
  decide +kernel

/-- **C86 fails**: gethostbyname gives only the IPv6 address of a name that has an IPv4 address too. -/
theorem gethostbyname_violated : gethostbyname world [104] = some ⟨[104, 111], 10, [List.replicate 15 0 ++ [1]]⟩ := by
  decide +kernel

end Mlibc.AddrInfo
