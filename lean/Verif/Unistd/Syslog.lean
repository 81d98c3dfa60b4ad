import Verif.Base
import Verif.Strtol.Props

/-
openlog, closelog, setlogmask and syslog (options/posix/generic/syslog.cpp). The formatted message and the time stamp are given; what
the socket does is a parameter of each call. Masks and priorities are natural numbers. Property C83.
-/
namespace Mlibc.Syslog
open Mlibc

/-! ## The code -/

/-- syslog.cpp L20-27, the static variables. `fd`: the socket is open. -/
structure S where
  ident : List Nat := []
  options : Nat := 0
  facility : Nat := 8
  fd : Bool := false
  /-- `log_opt`; nothing assigns to it -/
  opt : Nat := 0
  mask : Nat := 255
  fallback : Bool := false
  deriving DecidableEq, Repr

/-- What the system does during one call: whether socket succeeds, and connect; whether send succeeds, or fails because the connection
is lost; whether the second connect and the second send succeed. -/
structure Env where
  socket : Bool := true
  connect : Bool := true
  send : Bool := true
  lost : Bool := false
  reconnect : Bool := true
  resend : Bool := true
  pid : Nat := 1
  /-- the time stamp, `"%b %e %T"` -/
  time : List Nat := List.replicate 15 48
  deriving DecidableEq, Repr

inductive Out where
  /-- a datagram that the log socket took -/
  | log (text : List Nat)
  /-- a message written to the console, to standard error, or to mlibc's logger -/
  | console (text : List Nat)
  | stderr (text : List Nat)
  | logger (text : List Nat)
  deriving DecidableEq, Repr

/-- syslog.cpp L38-47 `__openlog` -/
def doOpen (s : S) (e : Env) : S :=
  if e.socket then { s with fd := true, fallback := if e.connect then s.fallback else true } else { s with fd := false }

/-- syslog.cpp L49-63 `openlog`. `none` is a null pointer. -/
def openlog (s : S) (e : Env) (ident : Option (List Nat)) (options facility : Nat) : S :=
  let s := { s with ident := (ident.getD []).take 31, options := options, facility := facility }
  if options &&& 8 ≠ 0 ∧ s.fd = false then doOpen s e else s

/-- syslog.cpp L32-36 `closelog` -/
def closelog (s : S) : S := { s with fd := false }

/-- syslog.cpp L65-71 `setlogmask`. -/
def setlogmask (s : S) (m : Nat) : Nat × S := (s.mask, { s with mask := m })

/-- syslog.cpp L109-110, the header: `"<%d>%s %n%s%s%.0d%s: "`. The second component is the value of `%n`. -/
def header (pri : Nat) (time ident : List Nat) (pid : Nat) : List Nat × Nat :=
  let h := 60 :: (Strtol.decimal pri ++ 62 :: (time ++ [32]))
  (h ++ ident ++ (if pid ≠ 0 then 91 :: (Strtol.decimal pid ++ [93]) else []) ++ [58, 32], h.length)

/-- syslog.cpp L112-119: the message behind the header in 1024 bytes, with a newline at the end. vsnprintf stores at most
`1024 - l - 1` characters. A header that does not fit is `ub` (it cannot happen). -/
def compose (hd msg : List Nat) : Res (List Nat) :=
  if hd.length < 1024 then
    let l := hd.length
    let buf := hd ++ msg.take (1024 - l - 1)
    let l := if msg.length ≥ 1024 - l then 1023 else l + msg.length
    let text := buf.take l
    if text[l - 1]? ≠ some 10 then .ok (text ++ [10]) else .ok text
  else .ub

/-- syslog.cpp L73-133 `_vsyslog` and L142-151 `vsyslog`. -/
def syslog (s : S) (e : Env) (pri : Nat) (msg : List Nat) : Res (List Out × S) :=
  if s.mask &&& (1 <<< (pri &&& 7)) = 0 ∨ pri ≥ 1024 then .ok ([], s)
  else if pri &&& s.mask = 0 then .ok ([], s)
  else
    let s := if s.fd = false then doOpen s e else s
    if s.fallback then .ok ([.logger (msg.take 1023)], s)
    else
      let pri := if pri &&& 0x3f8 = 0 then pri ||| s.facility else pri
      let pid := if s.opt &&& 1 ≠ 0 then e.pid else 0
      let hd := header pri e.time s.ident pid
      (compose hd.1 msg).bind fun text =>
        let sent := s.fd && e.send
        let resent := s.fd && e.lost && e.reconnect && e.resend
        .ok ((if sent || resent then [.log text] else if s.opt &&& 2 ≠ 0 then [.console (text.drop hd.2)] else []) ++
          (if s.opt &&& 32 ≠ 0 then [.stderr (text.drop hd.2)] else []), s)

inductive Call where
  | openlog (ident : Option (List Nat)) (options facility : Nat)
  | closelog
  | setlogmask (m : Nat)
  | syslog (pri : Nat) (msg : List Nat)
  deriving DecidableEq, Repr

/-- One call (syslog.cpp L32-151). -/
def step (s : S) (e : Env) : Call → Res (List Out × S)
  | .openlog i o f => .ok ([], openlog s e i o f)
  | .closelog => .ok ([], closelog s)
  | .setlogmask m => .ok ([], (setlogmask s m).2)
  | .syslog p m => syslog s e p m

/-- Calls one after the other (syslog.cpp L32-151). -/
def run (s : S) : List (Call × Env) → Res (List Out × S)
  | [] => .ok ([], s)
  | (c, e) :: cs => (step s e c).bind fun (o, s) => (run s cs).bind fun (os, s) => .ok (o ++ os, s)

/-! ## Specification -/

/-- What the program has asked for: the name, the facility and the priorities that count. -/
structure Want where
  ident : List Nat := []
  facility : Nat := 8
  mask : Nat := 255

/-- The line for a message: priority and facility, time, name, message; at most 1024 bytes; a newline ends it. -/
def line (w : Want) (pri : Nat) (time msg : List Nat) : List Nat :=
  let p := if pri < 8 then w.facility / 8 * 8 + pri else pri
  let full := [60] ++ Strtol.decimal p ++ [62] ++ time ++ [32] ++ w.ident ++ [58, 32] ++ msg
  if (full.take 1023).getLast? = some 10 then full.take 1023 else full.take 1023 ++ [10]

/-- The mask lets the severity through. -/
def allowed (w : Want) (pri : Nat) : Bool := w.mask.testBit (pri % 8) && decide (pri < 1024)

/-- What a history of calls is to send. -/
def wanted (w : Want) : List (Call × Env) → List Out
  | [] => []
  | (.openlog i _ f, _) :: cs => wanted { w with ident := (i.getD []).take 31, facility := f } cs
  | (.closelog, _) :: cs => wanted w cs
  | (.setlogmask m, _) :: cs => wanted { w with mask := if m = 0 then w.mask else m } cs
  | (.syslog p m, e) :: cs => (if allowed w p then [.log (line w p e.time m)] else []) ++ wanted w cs

/-- The log daemon takes every message (the connection may be lost and found again), time stamps have at most 15 bytes. -/
def Env.Works (e : Env) : Prop :=
  e.socket = true ∧ e.connect = true ∧ (e.send = true ∨ (e.lost = true ∧ e.reconnect = true ∧ e.resend = true)) ∧ e.time.length ≤ 15

/-- The calls that this theorem covers: facilities are multiples of 8 below 1024; no mask of 0; and when the mask lets a message
through, mask and priority have a bit in common as numbers. -/
def Covered : Nat → List (Call × Env) → Prop
  | _, [] => True
  | mask, (.openlog _ _ f, _) :: cs => f % 8 = 0 ∧ f < 1024 ∧ Covered mask cs
  | mask, (.closelog, _) :: cs => Covered mask cs
  | _, (.setlogmask m, _) :: cs => m ≠ 0 ∧ Covered m cs
  | mask, (.syslog p _, _) :: cs => (mask.testBit (p % 8) = true → p < 1024 → p &&& mask ≠ 0) ∧ Covered mask cs

/-! ## Proofs -/

theorem and7 (p : Nat) : p &&& 7 = p % 8 := by
  rw [show (7 : Nat) = 2 ^ 3 - 1 from rfl, Nat.and_two_pow_sub_one_eq_mod]

theorem mask_bit (m i : Nat) : (m &&& (1 <<< i) = 0) ↔ m.testBit i = false := by
  rw [Nat.one_shiftLeft]
  constructor
  · intro h
    have := congrArg (fun x => x.testBit i) h
    simpa [Nat.testBit_and, Nat.testBit_two_pow] using this
  · intro h
    apply Nat.eq_of_testBit_eq
    intro j
    rw [Nat.testBit_and, Nat.testBit_two_pow, Nat.zero_testBit]
    by_cases hj : i = j
    · subst hj; simp [h]
    · simp [hj]

theorem facmask (p : Nat) (hp : p < 1024) : (p &&& 0x3f8 = 0) ↔ p < 8 := by
  constructor
  · intro h
    rcases Nat.lt_or_ge p 8 with h8 | h8
    · exact h8
    · exfalso
      have key : ∀ q < 1024, q &&& 0x3f8 = 0 → q < 8 := by decide +kernel
      have := key p hp h
      omega
  · intro h
    have key : ∀ q < 8, q &&& 0x3f8 = 0 := by decide
    exact key p h

theorem or_facility (p f : Nat) (hp : p < 8) (hf : f % 8 = 0) : p ||| f = f / 8 * 8 + p := by
  have h := Nat.two_pow_add_eq_or_of_lt (i := 3) (b := p) (by omega) (f / 8)
  rw [Nat.or_comm, show f / 8 * 8 + p = 2 ^ 3 * (f / 8) + p by omega, h]
  congr 1
  omega

theorem decimal_length (n : Nat) (h : n < 2048) : (Strtol.decimal n).length ≤ 4 := by
  have l1 : ∀ n, n < 10 → (Strtol.decimal n).length ≤ 1 := by
    intro n h; unfold Strtol.decimal; simp [h]
  have l2 : ∀ n, n < 100 → (Strtol.decimal n).length ≤ 2 := by
    intro n h
    unfold Strtol.decimal
    split
    · simp
    · have := l1 (n / 10) (by omega); simp; omega
  have l3 : ∀ n, n < 1000 → (Strtol.decimal n).length ≤ 3 := by
    intro n h
    unfold Strtol.decimal
    split
    · simp
    · have := l2 (n / 10) (by omega); simp; omega
  unfold Strtol.decimal
  split
  · simp
  · have := l3 (n / 10) (by omega); simp; omega

theorem compose_eq (hd msg : List Nat) (h : hd.length < 1000) (hne : hd ≠ []) :
    compose hd msg = .ok (if ((hd ++ msg).take 1023).getLast? = some 10 then (hd ++ msg).take 1023 else (hd ++ msg).take 1023 ++ [10]) := by
  have hpos : 0 < hd.length := by cases hd with
    | nil => exact absurd rfl hne
    | cons a l => simp
  unfold compose
  rw [if_pos (by omega)]
  have htake : (hd ++ msg).take 1023 = hd ++ msg.take (1024 - hd.length - 1) := by
    rw [List.take_append, List.take_of_length_le (by omega)]
    congr 1
    rw [show 1023 - hd.length = 1024 - hd.length - 1 by omega]
  have hl : (hd ++ msg.take (1024 - hd.length - 1)).length = (if msg.length ≥ 1024 - hd.length then 1023 else hd.length + msg.length) := by
    rw [List.length_append, List.length_take]
    split <;> omega
  simp only
  rw [← hl, List.take_length, htake, List.getLast?_eq_getElem?]
  by_cases hx : (hd ++ msg.take (1024 - hd.length - 1))[(hd ++ msg.take (1024 - hd.length - 1)).length - 1]? = some 10
  · rw [if_neg (fun hy => hy hx), if_pos hx]
  · rw [if_pos hx, if_neg hx]

/-- The state agrees with what was asked for. -/
structure Rel (s : S) (w : Want) : Prop where
  ident : s.ident = w.ident
  short : w.ident.length ≤ 31
  facility : s.facility = w.facility
  fac8 : w.facility % 8 = 0
  facl : w.facility < 1024
  mask : s.mask = w.mask
  opt : s.opt = 0
  fallback : s.fallback = false

theorem syslog_ok (s : S) (w : Want) (e : Env) (h : Rel s w) (he : e.Works) (p : Nat) (m : List Nat)
    (hc : w.mask.testBit (p % 8) = true → p < 1024 → p &&& w.mask ≠ 0) :
    ∃ s', syslog s e p m = .ok (if allowed w p then [.log (line w p e.time m)] else [], s') ∧ Rel s' w := by
  obtain ⟨he1, he2, he3, he4⟩ := he
  unfold syslog
  rw [and7, h.mask]
  by_cases ha : allowed w p = true
  · obtain ⟨hb, hp⟩ : w.mask.testBit (p % 8) = true ∧ p < 1024 := by simpa [allowed] using ha
    rw [if_neg (by rw [mask_bit]; simp [hb]; omega), if_neg (hc hb hp), if_pos ha]
    have hs' : ∃ s', (if s.fd = false then doOpen s e else s) = s' ∧ s'.fd = true ∧ Rel s' w := by
      by_cases hf : s.fd = false
      · refine ⟨_, rfl, ?_, ?_⟩
        · simp [hf, doOpen, he1]
        · simp only [hf, if_true, doOpen, he1, he2]
          exact ⟨h.ident, h.short, h.facility, h.fac8, h.facl, h.mask, h.opt, h.fallback⟩
      · exact ⟨s, by rw [if_neg hf], by simpa using hf, h⟩
    obtain ⟨s', e1, e2, e3⟩ := hs'
    simp only [e1]
    rw [if_neg (by simp [e3.fallback])]
    have hpri : (if p &&& 0x3f8 = 0 then p ||| s'.facility else p) = (if p < 8 then w.facility / 8 * 8 + p else p) := by
      rw [e3.facility]
      by_cases h8 : p < 8
      · rw [if_pos ((facmask p hp).2 h8), if_pos h8, or_facility p _ h8 h.fac8]
      · rw [if_neg (fun hx => h8 ((facmask p hp).1 hx)), if_neg h8]
    have hlt : (if p < 8 then w.facility / 8 * 8 + p else p) < 2048 := by
      have := h.facl
      split <;> omega
    rw [hpri]
    generalize hq : (if p < 8 then w.facility / 8 * 8 + p else p) = q at hlt hpri
    have hopt : s'.opt = 0 := e3.opt
    simp only [hopt, Nat.zero_and, ne_eq, not_true_eq_false, if_false]
    have hhd : (header q e.time s'.ident 0).1 = [60] ++ Strtol.decimal q ++ [62] ++ e.time ++ [32] ++ w.ident ++ [58, 32] := by
      simp [header, e3.ident]
    have hlen : (header q e.time s'.ident 0).1.length < 1000 := by
      have := decimal_length q hlt
      have := h.short
      rw [hhd]; simp; omega
    rw [compose_eq _ _ hlen (by rw [hhd]; simp)]
    simp only [Res.bind]
    have hsent : (s'.fd && e.send || s'.fd && e.lost && e.reconnect && e.resend) = true := by
      rw [e2]
      rcases he3 with h1 | ⟨h1, h2, h3⟩
      · simp [h1]
      · simp [h1, h2, h3]
    rw [if_pos hsent]
    refine ⟨s', ?_, e3⟩
    rw [hhd, List.append_nil]
    unfold line
    rw [hq]
  · have hn : w.mask.testBit (p % 8) = false ∨ p ≥ 1024 := by
      unfold allowed at ha
      cases hb : w.mask.testBit (p % 8) with
      | false => exact .inl rfl
      | true => right; simp [hb] at ha; omega
    rw [if_pos (by rw [mask_bit]; exact hn), if_neg ha]
    exact ⟨s, rfl, h⟩

theorem run_ok (cs : List (Call × Env)) : ∀ (s : S) (w : Want), Rel s w → (∀ c ∈ cs, c.2.Works) → Covered w.mask cs →
    ∃ s', run s cs = .ok (wanted w cs, s') := by
  induction cs with
  | nil => intro s w _ _ _; exact ⟨s, rfl⟩
  | cons ce cs ih =>
    obtain ⟨c, e⟩ := ce
    intro s w h hw hc
    have he : e.Works := hw (c, e) (by simp)
    have hrest : ∀ c ∈ cs, c.2.Works := fun c hm => hw c (by simp [hm])
    cases c with
    | openlog i o f =>
      obtain ⟨hf8, hfl, hc⟩ := hc
      have hr : Rel (openlog s e i o f) { w with ident := (i.getD []).take 31, facility := f } := by
        unfold openlog
        simp only
        split
        · simp only [doOpen, he.1, he.2.1, if_true]
          exact ⟨rfl, by simp; omega, rfl, hf8, hfl, h.mask, h.opt, h.fallback⟩
        · exact ⟨rfl, by simp; omega, rfl, hf8, hfl, h.mask, h.opt, h.fallback⟩
      obtain ⟨s', h1⟩ := ih _ _ hr hrest hc
      exact ⟨s', by simp only [run, step, Res.bind, h1, wanted, List.nil_append]⟩
    | closelog =>
      have hr : Rel (closelog s) w := ⟨h.ident, h.short, h.facility, h.fac8, h.facl, h.mask, h.opt, h.fallback⟩
      obtain ⟨s', h1⟩ := ih _ _ hr hrest hc
      exact ⟨s', by simp only [run, step, Res.bind, h1, wanted, List.nil_append]⟩
    | setlogmask m =>
      obtain ⟨hm, hc⟩ := hc
      have hr : Rel (setlogmask s m).2 { w with mask := if m = 0 then w.mask else m } := by
        rw [if_neg hm]
        exact ⟨h.ident, h.short, h.facility, h.fac8, h.facl, rfl, h.opt, h.fallback⟩
      obtain ⟨s', h1⟩ := ih _ _ hr hrest (by simp only [if_neg hm]; exact hc)
      exact ⟨s', by simp only [run, step, Res.bind, h1, wanted, List.nil_append]⟩
    | syslog p m =>
      obtain ⟨hp, hc⟩ := hc
      obtain ⟨s1, h1, h2⟩ := syslog_ok s w e h he p m hp
      obtain ⟨s', h3⟩ := ih s1 w h2 hrest hc
      exact ⟨s', by simp only [run, step, h1, Res.bind, h3, wanted]⟩

/-- **C83.** With a log daemon that takes messages, any history of openlog, closelog, setlogmask and syslog sends, in order, exactly one
datagram for each message that the mask lets through: priority and facility, time, name and message, cut to 1024 bytes, ended by
a newline. Missing: masks and priorities without a common bit, a mask of 0, and the options of openlog (see the violations). -/
theorem syslog_partial (cs : List (Call × Env)) (hw : ∀ c ∈ cs, c.2.Works) (hc : Covered 255 cs) :
    ∃ s', run {} cs = .ok (wanted {} cs, s') :=
  run_ok cs {} {} ⟨rfl, by simp, rfl, rfl, by decide, rfl, rfl, rfl⟩ hw hc

/-- The hypotheses are met: a name, a mask up to warnings, an error and an informational message. -/
example : Covered 255 [(.openlog (some [97]) 0 24, {}), (.setlogmask 31, {}), (.syslog 3 [98], {}), (.syslog 6 [99], {})] ∧
    (({} : Env)).Works ∧
    wanted {} [(.openlog (some [97]) 0 24, {}), (.setlogmask 31, {}), (.syslog 3 [98], {}), (.syslog 6 [99], {})]
      = [.log ([60, 50, 55, 62] ++ List.replicate 15 48 ++ [32, 97, 58, 32, 98, 10])] := by
  refine ⟨?_, ?_, by decide +kernel⟩
  · simp only [Covered]; decide
  · exact ⟨rfl, rfl, .inl rfl, by decide⟩

/-- **C83.** setlogmask returns the mask before. -/
theorem setlogmask_previous (s : S) (a b : Nat) : (setlogmask (setlogmask s a).2 b).1 = a := rfl

/-- **C83.** A message whose severity the mask excludes is not sent, whatever the rest. -/
theorem masked_silent (s : S) (e : Env) (p : Nat) (m : List Nat) (h : s.mask.testBit (p % 8) = false) : syslog s e p m = .ok ([], s) := by
  unfold syslog
  rw [and7, if_pos (.inl ((mask_bit _ _).2 h))]

/-- **C83, violation.** With the mask LOG_MASK(LOG_ERR), a message of the severity LOG_ERR is not sent. -/
theorem mask_violated : run {} [(.setlogmask 8, {}), (.syslog 3 [97], {})] = .ok ([], { mask := 8 }) ∧
    allowed { mask := 8 } 3 = true := by decide +kernel

/-- **C83, violation.** With the initial mask, a message of the severity LOG_EMERG without facility is not sent. -/
theorem emergency_violated : run {} [(.syslog 0 [97], {})] = .ok ([], {}) ∧ allowed {} 0 = true := by decide +kernel

/-- **C83, violation.** setlogmask(0), which is to ask for the mask only, silences everything. -/
theorem setlogmask_zero_violated : run {} [(.setlogmask 0, {}), (.syslog 3 [97], {})] = .ok ([], { mask := 0 }) := by decide +kernel

/-- **C83, violation.** The options LOG_PID and LOG_PERROR have no effect. -/
theorem options_violated : ∃ o s s', run {} [(.openlog none 33 8, {}), (.syslog 3 [97], {})] = .ok (o, s) ∧
      run {} [(.openlog none 0 8, {}), (.syslog 3 [97], {})] = .ok (o, s') :=
  ⟨[.log ([60, 49, 49, 62] ++ List.replicate 15 48 ++ [32, 58, 32, 97, 10])], { fd := true, options := 33 }, { fd := true },
    by decide +kernel, by decide +kernel⟩

/-- **C83, violation.** If the log daemon does not run when the first message is sent, no later message is sent to it, although it runs
then and the program closes and opens the log again. -/
theorem fallback_violated : ∃ s, run {} [(.syslog 3 [97], { connect := false }), (.closelog, {}), (.openlog none 0 8, {}), (.syslog 3 [98], {})]
    = .ok ([.logger [97], .logger [98]], s) := ⟨{ fd := true, fallback := true }, by decide +kernel⟩

end Mlibc.Syslog
