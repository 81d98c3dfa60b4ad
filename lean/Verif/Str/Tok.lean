import Verif.Str.Search
/- C08: strtok_r, wcstok, strsep. -/
set_option linter.unusedSectionVars false
set_option linter.unusedSimpArgs false
namespace Mlibc.Str
open Mlibc

variable {α : Type} [DecidableEq α] [OfNat α 0]

/-! ### Model -/

/-- string.cpp:210-240 `strtok_r`. `buf` is the object being tokenised; pointers are offsets into it.
`s = none` is a NULL first argument; `m` is the save pointer. The two scanning loops (226-227, 232-233)
have the same bodies as strspn and strcspn and are modelled by them.
Returns (token or NULL, object after the call, new save pointer). `__ensure(m)` is assumed (m non-NULL). -/
def strtokR (buf : List α) (s : Option Nat) (del : List α) (m : Option Nat) :
    Res (Option Nat × List α × Option Nat) :=
  match s.or m with
  | none => .ok (none, buf, m)
  | some t0 => do
    let k ← strspn (buf.drop t0) del
    let tok := t0 + k
    let j ← strcspn (buf.drop tok) del
    let p := tok + j
    let c ← rd buf p
    if c ≠ 0 then
      return (if p = tok then none else some tok, buf.set p 0, some (p + 1))
    else
      return (if p = tok then none else some tok, buf, none)

/-- string.cpp:384-396 `wcscspn`. -/
def wcscspn (ws reject : List α) : Res Nat := do
  let r0 ← rd reject 0
  if r0 = 0 then strlen ws
  else
    let r1 ← rd reject 1
    if r1 = 0 then
      let m ← wcschr ws r0
      match m with
      | some i => return i
      | none => strlen ws
    else go ws reject
where
  /-- `for (; *i && !wcschr(reject, *i); i++);` string.cpp:393-395. -/
  go : List α → List α → Res Nat
    | [], _ => .ub
    | c :: ws, reject => do
      if c = 0 then return 0
      let r ← wcschr reject c
      if r.isSome then return 0
      let n ← go ws reject
      return n + 1

/-- string.cpp:412-419 `wcsspn`. -/
def wcsspn : List α → List α → Res Nat
  | [], _ => .ub
  | c :: ws, accept => do
      if c = 0 then return 0
      let r ← wcschr accept c
      if r.isNone then return 0
      let n ← wcsspn ws accept
      return n + 1

/-- string.cpp:439-456 `wcstok`. -/
def wcstok (buf : List α) (ws : Option Nat) (del : List α) (ptr : Option Nat) :
    Res (Option Nat × List α × Option Nat) :=
  match ws.or ptr with
  | none => .ok (none, buf, ptr)
  | some t0 => do
    let k ← wcsspn (buf.drop t0) del
    let tok := t0 + k
    let c ← rd buf tok
    if c = 0 then return (none, buf, none)
    let j ← wcscspn (buf.drop tok) del
    let p := tok + j
    let c ← rd buf p
    if c ≠ 0 then return (some tok, buf.set p 0, some (p + 1))
    else return (some tok, buf, none)

/-- posix_string.cpp:62-83 `strsep`. `m` is `*m`. -/
def strsep (buf : List α) (m : Option Nat) (del : List α) : Res (Option Nat × List α × Option Nat) :=
  match m with
  | none => .ok (none, buf, m)
  | some tok => do
    let j ← strcspn (buf.drop tok) del
    let p := tok + j
    let c ← rd buf p
    if c ≠ 0 then return (some tok, buf.set p 0, some (p + 1))
    else return (some tok, buf, none)

/-- The program `f(buf, start); f(NULL); f(NULL); ...` with `n` calls in total, `f` one of the functions
above with a fixed delimiter set: the returned pointers and the final buffer. -/
def callN (f : List α → Option Nat → Option Nat → Res (Option Nat × List α × Option Nat)) :
    Nat → List α → Option Nat → Option Nat → Res (List (Option Nat) × List α)
  | 0, buf, _, _ => .ok ([], buf)
  | n + 1, buf, s, m => do
    let (r, buf', m') ← f buf s m
    let (rs, buf'') ← callN f n buf' none m'
    return (r :: rs, buf'')

/-! ### Specification -/

/-- The fields of `s` separated by single delimiters (possibly empty). -/
def fields (isDel : α → Bool) : List α → List (List α)
  | [] => [[]]
  | c :: s =>
    if isDel c then [] :: fields isDel s
    else match fields isDel s with
      | f :: fs => (c :: f) :: fs
      | [] => [[c]]

/-- The tokens of `s`: its non-empty fields, i.e. its maximal delimiter-free runs. -/
def tokens (isDel : α → Bool) (s : List α) : List (List α) := (fields isDel s).filter (· ≠ [])

/-! ### Proof -/

theorem fields_ne_nil (q : α → Bool) (s : List α) : fields q s ≠ [] := by
  cases s with
  | nil => simp [fields]
  | cons c s => unfold fields; split <;> (try split) <;> simp

theorem fields_run {q : α → Bool} {w : List α} (hw : ∀ c ∈ w, q c = false) : fields q w = [w] := by
  induction w with
  | nil => rfl
  | cons c w ih =>
    rw [fields, ih (fun c h => hw c (List.mem_cons_of_mem _ h))]
    simp [hw c (by simp)]

theorem fields_run_cons {q : α → Bool} {w : List α} (hw : ∀ c ∈ w, q c = false) {d : α} (hd : q d = true)
    (t : List α) : fields q (w ++ d :: t) = w :: fields q t := by
  induction w with
  | nil => simp [fields, hd]
  | cons c w ih =>
    rw [List.cons_append, fields, ih (fun c h => hw c (List.mem_cons_of_mem _ h))]
    simp [hw c (by simp)]

theorem tokens_skip {q : α → Bool} {ds : List α} (hds : ∀ c ∈ ds, q c = true) (t : List α) :
    tokens q (ds ++ t) = tokens q t := by
  induction ds with
  | nil => rfl
  | cons d ds ih =>
    have ih := ih (fun c h => hds c (List.mem_cons_of_mem _ h))
    simp only [tokens] at *
    rw [List.cons_append, fields]
    simpa [hds d (by simp)] using ih

/-- Splitting a list at the first element not satisfying / satisfying `q`. -/
theorem SpanLen.split {q : α → Prop} {s : List α} {n : Nat} (h : SpanLen q s n) :
    ∃ w t, s = w ++ t ∧ w.length = n ∧ (∀ c ∈ w, q c) ∧ (∀ c t', t = c :: t' → ¬ q c) := by
  obtain ⟨h1, h2, h3⟩ := h
  refine ⟨s.take n, s.drop n, (List.take_append_drop n s).symm, by simp; omega, ?_, ?_⟩
  · intro c hc
    obtain ⟨i, hi, e⟩ := List.getElem_of_mem hc
    have hi' : i < n := by simp at hi; omega
    refine h2 i hi' c ?_
    rw [List.getElem_take] at e
    rw [← e]; exact List.getElem?_eq_getElem (by omega)
  · intro c t' e
    refine h3 c ?_
    have : (s.drop n)[0]? = some c := by rw [e]; rfl
    simpa using this

theorem drop_append_len (pre t : List α) (k : Nat) (hk : pre.length = k) : (pre ++ t).drop k = t := by
  subst hk; simp

theorem wcsspn_eq (s del : List α) (set : List α) (hset : CStr del set) : wcsspn s del = strspn s del := by
  induction s with
  | nil => rfl
  | cons c s ih =>
    unfold wcsspn strspn
    by_cases hc : c = 0
    · simp [hc]
    · rcases strchr_first del set c hset with ⟨i, e, hi⟩ | ⟨e, hi⟩ <;>
        rcases wcschr_first del set c hset with ⟨i', e', hi'⟩ | ⟨e', hi'⟩
      · simp [hc, e, e', ih]
      · obtain ⟨⟨c', h1, rfl⟩, _⟩ := hi; exact absurd (List.mem_of_getElem? h1) hi'
      · obtain ⟨⟨c', h1, rfl⟩, _⟩ := hi'; exact absurd (List.mem_of_getElem? h1) hi
      · simp [hc, e, e', ih]

theorem wcscspn_go_eq (s del : List α) (set : List α) (hset : CStr del set) :
    wcscspn.go s del = strcspn s del := by
  induction s with
  | nil => rfl
  | cons c s ih =>
    unfold wcscspn.go strcspn
    by_cases hc : c = 0
    · simp [hc]
    · rcases strchr_first del set c hset with ⟨i, e, hi⟩ | ⟨e, hi⟩ <;>
        rcases wcschr_first del set c hset with ⟨i', e', hi'⟩ | ⟨e', hi'⟩
      · simp [hc, e, e', ih]
      · obtain ⟨⟨c', h1, rfl⟩, _⟩ := hi; exact absurd (List.mem_of_getElem? h1) hi'
      · obtain ⟨⟨c', h1, rfl⟩, _⟩ := hi'; exact absurd (List.mem_of_getElem? h1) hi
      · simp [hc, e, e', ih]

theorem SpanLen.unique {q : α → Prop} {s : List α} {n m : Nat} (h : SpanLen q s n) (h' : SpanLen q s m) :
    n = m := by
  rcases Nat.lt_trichotomy n m with hlt | he | hlt
  · exact absurd (h'.2.1 n hlt (s[n]'(by have := h'.1; omega)) (List.getElem?_eq_getElem _))
      (h.2.2 _ (List.getElem?_eq_getElem _))
  · exact he
  · exact absurd (h.2.1 m hlt (s[m]'(by have := h.1; omega)) (List.getElem?_eq_getElem _))
      (h'.2.2 _ (List.getElem?_eq_getElem _))

/-- C07. `wcscspn`, including its special cases for empty and one-element sets. -/
theorem wcscspn_exact (buf s set' set : List α) (h : CStr buf s) (hset : CStr set' set) :
    ∃ n, wcscspn buf set' = .ok n ∧ SpanLen (· ∉ set) s n := by
  match set' with
  | [] => exact absurd hset not_cstr_nil
  | r0 :: set' =>
    rcases hset.cons_inv with ⟨rfl, rfl⟩ | ⟨hr0, set1, rfl, hset1⟩
    · refine ⟨s.length, by simp [wcscspn, rd, strlen_exact buf s h], by simp, by simp, by simp⟩
    · match set' with
      | [] => exact absurd hset1 not_cstr_nil
      | r1 :: set' =>
        rcases hset1.cons_inv with ⟨rfl, rfl⟩ | ⟨hr1, set2, rfl, hset2⟩
        · rcases wcschr_first buf s r0 h with ⟨i, e, ⟨c', hi, rfl⟩, hi2⟩ | ⟨e, hi⟩
          · refine ⟨i, by simp [wcscspn, rd, hr0, e], ?_, ?_, ?_⟩
            · have : i < (s ++ [0]).length := by
                rcases Nat.lt_or_ge i (s ++ [0]).length with h | h
                · exact h
                · rw [List.getElem?_eq_none h] at hi; cases hi
              simp at this; omega
            · intro j hj c hc
              have hjs : j < s.length := by
                rcases Nat.lt_or_ge j s.length with h | h
                · exact h
                · rw [List.getElem?_eq_none h] at hc; cases hc
              have := hi2 j hj c (by rw [List.getElem?_append_left hjs]; exact hc)
              simpa using this
            · intro c hc
              have his : i < s.length := by
                rcases Nat.lt_or_ge i s.length with h | h
                · exact h
                · rw [List.getElem?_eq_none h] at hc; cases hc
              rw [List.getElem?_append_left his, hc] at hi
              simp at hi; simp [hi]
          · refine ⟨s.length, by simp [wcscspn, rd, hr0, e, strlen_exact buf s h], by simp, ?_, by simp⟩
            intro j hj c hc
            have := List.mem_of_getElem? hc
            simp at hi
            simp; intro he; subst he; exact hi.1 this
        · have e : wcscspn buf (r0 :: r1 :: set') = wcscspn.go buf (r0 :: r1 :: set') := by
            simp [wcscspn, rd, hr0, hr1]
          rw [e, wcscspn_go_eq _ _ _ hset]
          exact strcspn_exact buf s _ _ h hset

theorem wcscspn_eq (buf s set' set : List α) (h : CStr buf s) (hset : CStr set' set) :
    wcscspn buf set' = strcspn buf set' := by
  obtain ⟨n, e, hn⟩ := wcscspn_exact buf s set' set h hset
  obtain ⟨m, e', hm⟩ := strcspn_exact buf s set' set h hset
  rw [e, e', hn.unique hm]

/-- One step of the tokenisers on the remaining string `t` at offset `pre.length`. -/
theorem strsep_step (pre t rest del set : List α) (h0 : 0 ∉ t) (hset : CStr del set) :
    ∃ w tail, t = w ++ tail ∧ (∀ c ∈ w, c ∉ set) ∧
      ((tail = [] ∧ strsep (pre ++ (t ++ 0 :: rest)) (some pre.length) del =
          .ok (some pre.length, pre ++ (t ++ 0 :: rest), none)) ∨
       (∃ d t', tail = d :: t' ∧ d ∈ set ∧
          strsep (pre ++ (t ++ 0 :: rest)) (some pre.length) del =
          .ok (some pre.length, (pre ++ w ++ [0]) ++ (t' ++ 0 :: rest), some ((pre ++ w ++ [0]).length)))) := by
  obtain ⟨n, e, hn⟩ := strcspn_exact (t ++ 0 :: rest) t del set ⟨h0, rest, rfl⟩ hset
  obtain ⟨w, tail, rfl, rfl, hw, htail⟩ := hn.split
  refine ⟨w, tail, rfl, hw, ?_⟩
  have hdrop : (pre ++ (w ++ tail ++ 0 :: rest)).drop pre.length = w ++ tail ++ 0 :: rest := by simp
  cases tail with
  | nil =>
    left
    refine ⟨rfl, ?_⟩
    have hr : rd (pre ++ (w ++ [] ++ 0 :: rest)) (pre.length + w.length) = .ok 0 := by
      simp [rd, List.getElem?_append_right]
    simp only [strsep, hdrop, e, Res.ok_bind, hr]
    simp
  | cons d t' =>
    right
    have hd : d ∈ set := Classical.not_not.1 (htail d t' rfl)
    have hd0 : d ≠ 0 := by rintro rfl; exact h0 (by simp)
    refine ⟨d, t', rfl, hd, ?_⟩
    have hr : rd (pre ++ (w ++ d :: t' ++ 0 :: rest)) (pre.length + w.length) = .ok d := by
      simp [rd, List.getElem?_append_right]
    simp only [strsep, hdrop, e, Res.ok_bind, hr, ne_eq, hd0, not_false_eq_true, if_true, Res.pure_eq]
    simp [List.set_append_right]
    omega

theorem strtok_step (pre t rest del set : List α) (h0 : 0 ∉ t) (hset : CStr del set) :
    ∃ ds w tail, t = ds ++ (w ++ tail) ∧ (∀ c ∈ ds, c ∈ set) ∧ (∀ c ∈ w, c ∉ set) ∧
      (w = [] → tail = []) ∧
      ((tail = [] ∧ ∀ s m, (s = some pre.length ∨ (s = none ∧ m = some pre.length)) →
          strtokR (pre ++ (t ++ 0 :: rest)) s del m =
          .ok (if w = [] then none else some (pre ++ ds).length, pre ++ (t ++ 0 :: rest), none)) ∨
       (∃ d t', tail = d :: t' ∧ d ∈ set ∧
          ∀ s m, (s = some pre.length ∨ (s = none ∧ m = some pre.length)) →
          strtokR (pre ++ (t ++ 0 :: rest)) s del m =
          .ok (some (pre ++ ds).length, (pre ++ ds ++ w ++ [0]) ++ (t' ++ 0 :: rest),
            some ((pre ++ ds ++ w ++ [0]).length)))) := by
  obtain ⟨n, e, hn⟩ := strspn_exact (t ++ 0 :: rest) t del set ⟨h0, rest, rfl⟩ hset
  obtain ⟨ds, t2, rfl, rfl, hds, ht2⟩ := hn.split
  have h02 : 0 ∉ t2 := fun h => h0 (by simp [h])
  obtain ⟨w, tail, rfl, hw, hcase⟩ := strsep_step (pre ++ ds) t2 rest del set h02 hset
  refine ⟨ds, w, tail, rfl, hds, hw, ?_, ?_⟩
  · rintro rfl
    match tail, hcase with
    | [], _ => rfl
    | d :: t', .inr ⟨_, _, e2, hd, _⟩ =>
      obtain ⟨rfl, rfl⟩ := by simpa using e2
      exact absurd hd (ht2 d t' (by simp))
  · -- relate strtokR to strsep at the first non-delimiter
    have key : ∀ s m, (s = some pre.length ∨ (s = none ∧ m = some pre.length)) → ∀ r b m2,
        strsep (pre ++ ds ++ (w ++ tail ++ 0 :: rest)) (some (pre ++ ds).length) del = .ok (some r, b, m2) →
        r = (pre ++ ds).length → (w = [] → b = pre ++ ds ++ (w ++ tail ++ 0 :: rest) ∧ m2 = none) →
        strtokR (pre ++ (ds ++ (w ++ tail) ++ 0 :: rest)) s del m =
          .ok (if w = [] then none else some r, b, m2) := by
      intro s m hsm r b m2 hsep hrr hwe
      have hm : s.or m = some pre.length := by
        rcases hsm with rfl | ⟨rfl, rfl⟩ <;> rfl
      unfold strtokR
      rw [hm]
      have ed : (pre ++ (ds ++ (w ++ tail) ++ 0 :: rest)).drop pre.length = ds ++ (w ++ tail) ++ 0 :: rest := by
        simp
      simp only [ed, e, Res.ok_bind]
      have eq1 : pre ++ (ds ++ (w ++ tail) ++ 0 :: rest) = pre ++ ds ++ (w ++ tail ++ 0 :: rest) := by
        simp
      rw [eq1]
      have eq2 : pre.length + ds.length = (pre ++ ds).length := by simp
      rw [eq2]
      unfold strsep at hsep
      simp only at hsep
      obtain ⟨k, hk⟩ := strcspn_exact (w ++ tail ++ 0 :: rest) (w ++ tail) del set ⟨h02, rest, rfl⟩ hset
      have edd : (pre ++ ds ++ (w ++ tail ++ 0 :: rest)).drop (pre ++ ds).length = w ++ tail ++ 0 :: rest := by
        simp
      have hkw : k = w.length := by
        refine hk.2.unique ⟨by simp, ?_, ?_⟩
        · intro j hj c hc
          rw [List.getElem?_append_left hj] at hc
          exact hw c (List.mem_of_getElem? hc)
        · intro c hc
          rw [List.getElem?_append_right (by omega), Nat.sub_self] at hc
          match tail, hcase, hc with
          | [], _, hc => simp at hc
          | d :: t', .inr ⟨_, _, e2, hd, _⟩, hc =>
            obtain ⟨rfl, rfl⟩ := by simpa using e2
            simp at hc; subst hc; simpa using hd
      rw [edd] at hsep ⊢
      rw [hk.1] at hsep ⊢
      subst hkw
      simp only [Res.ok_bind] at hsep ⊢
      cases hc : rd (pre ++ ds ++ (w ++ tail ++ 0 :: rest)) ((pre ++ ds).length + w.length) with
      | ok c =>
        rw [hc] at hsep
        simp only [Res.ok_bind] at hsep ⊢
        have hwl : ((pre ++ ds).length + w.length = (pre ++ ds).length) ↔ w = [] := by
          rw [← List.length_eq_zero_iff]; omega
        by_cases hc0 : c = 0
        · simp only [hc0, ne_eq, not_true_eq_false, if_false, Res.pure_eq, Res.ok.injEq, Prod.mk.injEq] at hsep ⊢
          simp [hwl, ← hsep.1, ← hsep.2.1, ← hsep.2.2]
        · simp only [hc0, ne_eq, not_false_eq_true, if_true, Res.pure_eq, Res.ok.injEq, Prod.mk.injEq] at hsep ⊢
          simp [hwl, ← hsep.1, ← hsep.2.1, ← hsep.2.2]
      | ub => rw [hc] at hsep; simp at hsep
      | panic => rw [hc] at hsep; simp at hsep
    rcases hcase with ⟨rfl, hs⟩ | ⟨d, t', rfl, hd, hs⟩
    · left
      refine ⟨rfl, fun s m hsm => ?_⟩
      rw [key s m hsm _ _ _ hs rfl (fun _ => ⟨rfl, rfl⟩)]
      simp
    · right
      refine ⟨d, t', rfl, hd, fun s m hsm => ?_⟩
      have hwne : w ≠ [] := by rintro rfl; exact absurd hd (ht2 d t' (by simp))
      rw [key s m hsm _ _ _ hs rfl (fun h => absurd h hwne)]
      simp [hwne]

/-- Membership in the delimiter set as a Boolean test. -/
def inSet (set : List α) (c : α) : Bool := set.contains c

theorem callN_none (f : List α → Option Nat → Option Nat → Res (Option Nat × List α × Option Nat))
    (hf : ∀ b, f b none none = .ok (none, b, none)) (n : Nat) (buf : List α) :
    callN f n buf none none = .ok (List.replicate n none, buf) := by
  induction n with
  | zero => rfl
  | succ n ih => simp [callN, hf, ih, List.replicate_succ]

/-- General form of the strtok_r history theorem, from any position. -/
theorem strtok_calls (del set : List α) (hset : CStr del set) (rest : List α) :
    ∀ (n : Nat) (pre t : List α) (s m : Option Nat), 0 ∉ t →
      (s = some pre.length ∨ (s = none ∧ m = some pre.length)) →
      (tokens (inSet set) t).length ≤ n →
      ∃ offs final, callN (fun b s m => strtokR b s del m) n (pre ++ (t ++ 0 :: rest)) s m =
          .ok (offs.map some ++ List.replicate (n - offs.length) none, pre ++ final) ∧
        final.length = (t ++ 0 :: rest).length ∧
        Pointwise (fun o w => CStr ((pre ++ final).drop o) w) offs (tokens (inSet set) t) := by
  intro n
  induction n with
  | zero =>
    intro pre t s m h0 hsm hlen
    have : tokens (inSet set) t = [] := List.length_eq_zero_iff.1 (by omega)
    exact ⟨[], t ++ 0 :: rest, by simp [callN], rfl, by rw [this]; exact .nil⟩
  | succ n ih =>
    intro pre t s m h0 hsm hlen
    obtain ⟨ds, w, tail, rfl, hds, hw, hwt, hcase⟩ := strtok_step pre t rest del set h0 hset
    have hdsq : ∀ c ∈ ds, inSet set c = true := fun c hc => by simpa [inSet] using hds c hc
    have hwq : ∀ c ∈ w, inSet set c = false := fun c hc => by simpa [inSet] using hw c hc
    rw [tokens_skip hdsq] at hlen
    rcases hcase with ⟨rfl, hs⟩ | ⟨d, t', rfl, hd, hs⟩
    · have htok : tokens (inSet set) (ds ++ (w ++ [])) = if w = [] then [] else [w] := by
        rw [tokens_skip hdsq, List.append_nil, tokens, fields_run hwq]
        by_cases hwe : w = [] <;> simp [hwe]
      have hnone : ∀ b : List α, strtokR b none del none = .ok (none, b, none) := fun b => rfl
      rw [htok]
      by_cases hwe : w = []
      · refine ⟨[], ds ++ (w ++ []) ++ 0 :: rest, ?_, rfl, by simp only [hwe, if_true]; exact .nil⟩
        simp only [callN, hs s m hsm, Res.ok_bind, callN_none (fun b s m => strtokR b s del m) hnone]
        simp [hwe, List.replicate_succ]
      · refine ⟨[(pre ++ ds).length], ds ++ (w ++ []) ++ 0 :: rest, ?_, rfl, ?_⟩
        · simp only [callN, hs s m hsm, Res.ok_bind, callN_none (fun b s m => strtokR b s del m) hnone]
          simp [hwe]
        · simp only [hwe, if_false]
          refine .cons ?_ .nil
          refine ⟨fun h => h0 (by simp [h]), rest, ?_⟩
          have : pre ++ (ds ++ (w ++ []) ++ 0 :: rest) = (pre ++ ds) ++ (w ++ 0 :: rest) := by simp
          rw [this, List.drop_left]
    · have hdq : inSet set d = true := by simpa [inSet] using hd
      have hwne : w ≠ [] := fun h => by simpa using hwt h
      have htok : tokens (inSet set) (w ++ d :: t') = w :: tokens (inSet set) t' := by
        rw [tokens, fields_run_cons hwq hdq]
        simp [hwne, tokens]
      rw [htok] at hlen
      have h0' : 0 ∉ t' := fun h => h0 (by simp [h])
      obtain ⟨offs, final, e, hl, hfa⟩ := ih (pre ++ ds ++ w ++ [0]) t' none
        (some (pre ++ ds ++ w ++ [0]).length) h0' (.inr ⟨rfl, rfl⟩) (by simpa using hlen)
      refine ⟨(pre ++ ds).length :: offs, ds ++ w ++ [0] ++ final, ?_, ?_, ?_⟩
      · simp only [callN, hs s m hsm, Res.ok_bind, e, Res.pure_eq]
        simp
      · simp only [List.length_append] at hl ⊢
        simp at hl ⊢; omega
      · rw [tokens_skip hdsq, htok]
        refine .cons ?_ ?_
        · refine ⟨fun h => h0 (by simp [h]), final, ?_⟩
          have : pre ++ (ds ++ w ++ [0] ++ final) = (pre ++ ds) ++ (w ++ 0 :: final) := by simp
          rw [this, List.drop_left]
        · have : pre ++ (ds ++ w ++ [0] ++ final) = pre ++ ds ++ w ++ [0] ++ final := by simp
          rw [this]; exact hfa

/-- C08. Calling `strtok_r(s, del, &m)` and then `strtok_r(NULL, del, &m)` repeatedly, `n` calls in all:
the first calls return, in order, pointers to exactly the maximal delimiter-free runs of the string, all
further calls return NULL; in the final buffer every returned pointer is the NUL-terminated token. -/
theorem strtok_tokens (buf s del set : List α) (hs : CStr buf s) (hset : CStr del set) (m : Option Nat)
    (n : Nat) (hn : (tokens (inSet set) s).length ≤ n) :
    ∃ offs final, callN (fun b s m => strtokR b s del m) n buf (some 0) m =
        .ok (offs.map some ++ List.replicate (n - offs.length) none, final) ∧
      final.length = buf.length ∧
      Pointwise (fun o w => CStr (final.drop o) w) offs (tokens (inSet set) s) := by
  obtain ⟨h0, rest, rfl⟩ := hs
  simpa using strtok_calls del set hset rest n [] s (some 0) m h0 (.inl rfl) hn

/-- C08. `wcstok` agrees with `strtok_r` call by call. -/
theorem wcstok_eq_strtok (pre t rest del set : List α) (h0 : 0 ∉ t) (hset : CStr del set)
    (s m : Option Nat) (hsm : s = some pre.length ∨ (s = none ∧ m = some pre.length)) :
    wcstok (pre ++ (t ++ 0 :: rest)) s del m = strtokR (pre ++ (t ++ 0 :: rest)) s del m := by
  obtain ⟨n, e, hn⟩ := strspn_exact (t ++ 0 :: rest) t del set ⟨h0, rest, rfl⟩ hset
  obtain ⟨ds, t2, rfl, rfl, hds, ht2⟩ := hn.split
  have h02 : 0 ∉ t2 := fun h => h0 (by simp [h])
  have hm : s.or m = some pre.length := by
    rcases hsm with rfl | ⟨rfl, rfl⟩ <;> rfl
  have ed : (pre ++ (ds ++ t2 ++ 0 :: rest)).drop pre.length = ds ++ t2 ++ 0 :: rest := by simp
  have ed2 : (pre ++ (ds ++ t2 ++ 0 :: rest)).drop (pre.length + ds.length) = t2 ++ 0 :: rest := by
    have : pre ++ (ds ++ t2 ++ 0 :: rest) = (pre ++ ds) ++ (t2 ++ 0 :: rest) := by simp
    rw [this, ← List.length_append, List.drop_left]
  unfold wcstok strtokR
  rw [hm]
  simp only [ed, wcsspn_eq _ del set hset, e, Res.ok_bind, ed2,
    wcscspn_eq (t2 ++ 0 :: rest) t2 del set ⟨h02, rest, rfl⟩ hset]
  have hr : ∀ c t', t2 ++ 0 :: rest = c :: t' →
      rd (pre ++ (ds ++ t2 ++ 0 :: rest)) (pre.length + ds.length) = .ok c := by
    intro c t' h
    have : (pre ++ (ds ++ t2 ++ 0 :: rest))[pre.length + ds.length]? = some c := by
      have h2 : ((pre ++ (ds ++ t2 ++ 0 :: rest)).drop (pre.length + ds.length))[0]? = some c := by
        rw [ed2, h]; rfl
      rwa [List.getElem?_drop, Nat.add_zero] at h2
    simp only [rd, this]
  obtain ⟨k, ek, hk⟩ := strcspn_exact (t2 ++ 0 :: rest) t2 del set ⟨h02, rest, rfl⟩ hset
  cases t2 with
  | nil =>
    have hk0 : k = 0 := by have := hk.1; simp at this; exact this
    subst hk0
    rw [hr 0 rest rfl, ek]
    simp [hr 0 rest rfl]
    have := hr 0 rest rfl
    simp at this
    simp [this]
  | cons c t2 =>
    have hc0 : c ≠ 0 := by rintro rfl; exact h02 (by simp)
    rw [hr c (t2 ++ 0 :: rest) rfl, ek]
    have hk0 : k ≠ 0 := by
      rintro rfl
      exact hk.2.2 c rfl (ht2 c t2 rfl)
    simp only [Res.ok_bind, hc0, if_false]
    simp [hk0]

/-- C08. `strsep` over the whole string: `n` calls return pointers to exactly the delimiter-separated
fields (empty ones included) and then NULL; final contents as for strtok_r. -/
theorem strsep_fields (buf s del set : List α) (hs : CStr buf s) (hset : CStr del set) (n : Nat)
    (hn : (fields (inSet set) s).length ≤ n) :
    ∃ offs final, callN (fun b _ m => strsep b m del) n buf none (some 0) =
        .ok (offs.map some ++ List.replicate (n - offs.length) none, final) ∧
      final.length = buf.length ∧
      Pointwise (fun o w => CStr (final.drop o) w) offs (fields (inSet set) s) := by
  obtain ⟨h0, rest, rfl⟩ := hs
  have gen : ∀ (n : Nat) (pre t : List α), 0 ∉ t → (fields (inSet set) t).length ≤ n →
      ∃ offs final, callN (fun b _ m => strsep b m del) n (pre ++ (t ++ 0 :: rest)) none (some pre.length) =
          .ok (offs.map some ++ List.replicate (n - offs.length) none, pre ++ final) ∧
        final.length = (t ++ 0 :: rest).length ∧
        Pointwise (fun o w => CStr ((pre ++ final).drop o) w) offs (fields (inSet set) t) := by
    intro n
    induction n with
    | zero =>
      intro pre t _ hlen
      exact absurd (List.length_eq_zero_iff.1 (Nat.le_zero.1 hlen)) (fields_ne_nil _ _)
    | succ n ih =>
      intro pre t h0 hlen
      obtain ⟨w, tail, rfl, hw, hcase⟩ := strsep_step pre t rest del set h0 hset
      have hwq : ∀ c ∈ w, inSet set c = false := fun c hc => by simpa [inSet] using hw c hc
      rcases hcase with ⟨rfl, hs⟩ | ⟨d, t', rfl, hd, hs⟩
      · have hnone : ∀ b : List α, strsep b none del = .ok (none, b, none) := fun b => rfl
        refine ⟨[pre.length], w ++ [] ++ 0 :: rest, ?_, rfl, ?_⟩
        · simp only [callN, hs, Res.ok_bind, callN_none (fun b _ m => strsep b m del) hnone]
          simp
        · rw [List.append_nil, fields_run hwq]
          refine .cons ⟨fun h => h0 (by simp [h]), rest, ?_⟩ .nil
          rw [List.drop_left]
      · have hdq : inSet set d = true := by simpa [inSet] using hd
        rw [fields_run_cons hwq hdq] at hlen ⊢
        have h0' : 0 ∉ t' := fun h => h0 (by simp [h])
        obtain ⟨offs, final, e, hl, hfa⟩ := ih (pre ++ w ++ [0]) t' h0' (by simpa using hlen)
        refine ⟨pre.length :: offs, w ++ [0] ++ final, ?_, ?_, ?_⟩
        · simp only [callN, hs, Res.ok_bind, e, Res.pure_eq]
          simp
        · simp only [List.length_append] at hl ⊢
          simp at hl ⊢; omega
        · refine .cons ?_ ?_
          · refine ⟨fun h => h0 (by simp [h]), final, ?_⟩
            have : pre ++ (w ++ [0] ++ final) = pre ++ (w ++ 0 :: final) := by simp
            rw [this, List.drop_left]
          · have : pre ++ (w ++ [0] ++ final) = pre ++ w ++ [0] ++ final := by simp
            rw [this]; exact hfa
  simpa using gen n [] s h0 hn

example : callN (fun b s m => strtokR b s [44, 59, 0] m) 4 ([44, 97, 98, 59, 44, 99, 0] : List UInt8) (some 0) none
    = .ok ([some 1, some 5, none, none], [44, 97, 98, 0, 44, 99, 0]) := by decide
example := strtok_tokens ([44, 97, 98, 59, 44, 99, 0] : List UInt8) [44, 97, 98, 59, 44, 99] [44, 59, 0] [44, 59]
  ⟨by decide, [], rfl⟩ ⟨by decide, [], rfl⟩ none 4 (by decide)
example : tokens (inSet [44, 59]) ([44, 97, 98, 59, 44, 99] : List UInt8) = [[97, 98], [99]] := by decide
example : callN (fun b _ m => strsep b m [44, 0]) 4 ([97, 44, 44, 99, 0] : List UInt8) none (some 0)
    = .ok ([some 0, some 2, some 3, none], [97, 0, 0, 99, 0]) := by decide

end Mlibc.Str
