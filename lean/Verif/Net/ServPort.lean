import Verif.Net.Services

/-
getservbyport: the proofs for the model in `Verif.Net.Services`. Property C84.
-/
namespace Mlibc.Services
open Mlibc Words

/-- What getservbyport needs besides `GoodLine`: the name has no digits, there is one slash in the line, before the comment. -/
def GoodPortLine (line : List Nat) : Prop :=
  GoodLine line ∧ (line.takeWhile (· ≠ 35)).count 47 ≤ 1 ∧
    ∀ n, (words (line.takeWhile (· ≠ 35))).head? = some n → ∀ c ∈ n, ¬ (48 ≤ c ∧ c ≤ 57)

theorem bind_ok {α β : Type} (a : α) (f : α → Res β) : (Res.ok a).bind f = f a := rfl

theorem alpha_white (c : Nat) (h : white c = true) : alpha c = false := by
  simp only [white, Bool.or_eq_true, beq_iff_eq] at h
  simp only [alpha, Bool.or_eq_false_iff, Bool.and_eq_false_iff, decide_eq_false_iff_not]
  omega

theorem parse_le (s : List Nat) (n : Nat) (neg : Bool) (mag : Nat) (h : Strtol.Spec.parse white 10 s = some (n, neg, mag)) :
    n ≤ s.length ∧ (∀ c, s.getLast? = some c → ¬ (48 ≤ c ∧ c ≤ 57) → n < s.length) := by
  unfold Strtol.Spec.parse at h
  simp only [base10, List.drop_zero, Nat.add_zero] at h
  generalize hws : s.takeWhile white = ws at h
  generalize hk : (if (s.drop ws.length).head? = some 45 ∨ (s.drop ws.length).head? = some 43 then 1 else 0) = k at h
  by_cases hds : ((s.drop ws.length).drop k).takeWhile (Strtol.Spec.isDigitIn 10) = []
  · rw [if_pos hds] at h; cases h
  · rw [if_neg hds] at h
    have hn' : n = ws.length + k + (((s.drop ws.length).drop k).takeWhile (Strtol.Spec.isDigitIn 10)).length := by
      have := congrArg (fun x => x.map (·.1)) h
      simpa using this.symm
    have hpre := List.takeWhile_prefix (l := (s.drop ws.length).drop k) (Strtol.Spec.isDigitIn 10)
    have hlen := hpre.length_le
    have hpos := List.length_pos_iff.2 hds
    rw [List.length_drop, List.length_drop] at hlen
    have hle : n ≤ s.length := by omega
    refine ⟨hle, ?_⟩
    intro c hc hnd
    rcases Nat.lt_or_ge n s.length with hlt | hge
    · exact hlt
    · exfalso
      have hall : ((s.drop ws.length).drop k).takeWhile (Strtol.Spec.isDigitIn 10) = (s.drop ws.length).drop k := by
        apply hpre.eq_of_length_le
        rw [List.length_drop, List.length_drop]
        omega
      have hmem : c ∈ (s.drop ws.length).drop k := by
        have hne : (s.drop ws.length).drop k ≠ [] := by rw [← hall]; exact hds
        have h1 : s = s.take (ws.length + k) ++ (s.drop ws.length).drop k := by
          rw [List.drop_drop]; exact (List.take_append_drop _ s).symm
        have h2 : s.getLast? = ((s.drop ws.length).drop k).getLast? := by
          conv => lhs; rw [h1]
          rw [List.getLast?_append]
          cases hq : ((s.drop ws.length).drop k).getLast? with
          | none => exact absurd (List.getLast?_eq_none_iff.1 hq) hne
          | some x => rfl
        rw [h2] at hc
        exact List.mem_of_getLast? hc
      rw [← hall] at hmem
      exact hnd ((isDigitIn_iff c).1 (takeWhile_all _ _ c hmem))

theorem drop_index {α : Type} (buf : List α) (pos : Nat) (a b : List α) (h : buf.drop pos = a ++ b) : buf.drop (pos + a.length) = b := by
  rw [← List.drop_drop, h, List.drop_left]

/-- The loop ends, and where it found a number, some end of the text follows. -/
theorem portLoop_ends (buf tail : List Nat) (port : Int) (s : List Nat) (pos fuel : Nat) (hb : buf.drop pos = s ++ 0 :: tail)
    (h0 : 0 ∉ s) (hlast : s = [] ∨ s.getLast? = some 10) (hf : s.length < fuel) :
    ∃ r, portLoop buf port fuel pos = .ok r ∧ ∀ p e, r = some (p, e) → ∃ k, buf.drop e = s.drop k ++ 0 :: tail := by
  induction fuel generalizing s pos with
  | zero => omega
  | succ fuel ih =>
    rw [portLoop]
    have hpos : buf[pos]? = (s ++ 0 :: tail)[0]? := by
      rw [← hb, List.getElem?_drop, Nat.add_zero]
    cases s with
    | nil =>
      rw [hpos]
      exact ⟨none, by simp, by simp⟩
    | cons c s =>
      have hc : c ≠ 0 := fun e => h0 (by simp [e])
      rw [hpos]
      simp only [List.cons_append, List.getElem?_cons_zero, if_neg hc]
      generalize hs' : c :: s = t at *
      have hlast' : t.getLast? = some 10 := by
        rcases hlast with h | h
        · rw [← hs'] at h; cases h
        · exact h
      -- the letters
      have hal : (buf.drop pos).takeWhile alpha = t.takeWhile alpha := by
        rw [hb]
        have hd : t = t.takeWhile alpha ++ t.dropWhile alpha := (List.takeWhile_append_dropWhile).symm
        conv => lhs; rw [hd, List.append_assoc]
        apply takeWhile_split _ _ (takeWhile_all alpha t)
        intro x hx
        cases hq : t.dropWhile alpha with
        | nil => rw [hq] at hx; simp at hx; subst hx; decide
        | cons y q =>
          rw [hq] at hx
          simp at hx
          subst hx
          exact head_dropWhile' alpha t y (by rw [hq]; rfl)
      rw [hal]
      have hd : t = t.takeWhile alpha ++ t.dropWhile alpha := (List.takeWhile_append_dropWhile).symm
      generalize ha : t.takeWhile alpha = a at *
      generalize hu : t.dropWhile alpha = u at *
      have hbu : buf.drop (pos + a.length) = u ++ 0 :: tail := by
        apply drop_index buf pos a
        rw [hb, hd, List.append_assoc]
      have hune : u ≠ [] := by
        intro e
        rw [e, List.append_nil] at hd
        have hm := List.mem_of_getLast? hlast'
        rw [hd, ← ha] at hm
        have := takeWhile_all alpha t 10 hm
        exact absurd this (by decide)
      have hulast : u.getLast? = some 10 := by
        rw [hd, List.getLast?_append] at hlast'
        cases hq : u.getLast? with
        | none => exact absurd (List.getLast?_eq_none_iff.1 hq) hune
        | some x => rw [hq] at hlast'; simpa using hlast'
      have h0u : 0 ∉ u := fun h => h0 (by rw [hd]; simp [h])
      have hulen : u.length ≤ t.length := by rw [hd]; simp
      have hupos := List.length_pos_iff.2 hune
      rw [hbu, strtoul_spec u tail h0u]
      -- after the number
      have key : ∀ (v : Int) (n : Nat), n < u.length →
          ∃ r, ((Res.ok (v, n) : Res (Int × Nat)).bind fun (v, e) =>
            if otherPort v port then portLoop buf port fuel (pos + a.length + e + 1)
            else .ok (some (pos + a.length, pos + a.length + e))) = .ok r ∧
            ∀ p e, r = some (p, e) → ∃ k, buf.drop e = t.drop k ++ 0 :: tail := by
        intro v n hn
        simp only [Res.bind]
        have hdn : ∀ m, m ≤ u.length → buf.drop (pos + a.length + m) = u.drop m ++ 0 :: tail := by
          intro m hm
          have := drop_index buf (pos + a.length) (u.take m) (u.drop m ++ 0 :: tail) (by
            rw [hbu, ← List.append_assoc, List.take_append_drop])
          rw [List.length_take, Nat.min_eq_left hm] at this
          exact this
        have htd : ∀ m, t.drop (a.length + m) = u.drop m := by
          intro m
          rw [hd, ← List.drop_drop, List.drop_left]
        split
        · obtain ⟨r, hr1, hr2⟩ := ih (u.drop (n + 1)) (pos + a.length + n + 1) (hdn (n + 1) hn)
            (fun h => h0u (List.mem_of_mem_drop h)) (by
              rcases Nat.lt_or_ge (n + 1) u.length with h | h
              · right
                rw [List.getLast?_drop, if_neg (by omega), hulast]
              · left
                exact List.drop_eq_nil_iff.2 h) (by rw [List.length_drop]; omega)
          refine ⟨r, hr1, ?_⟩
          intro p e hpe
          obtain ⟨k, hk⟩ := hr2 p e hpe
          refine ⟨a.length + (n + 1 + k), ?_⟩
          rw [hk, List.drop_drop]
          rw [htd]
        · refine ⟨_, rfl, ?_⟩
          intro p e hpe
          simp only [Option.some.injEq, Prod.mk.injEq] at hpe
          refine ⟨a.length + n, ?_⟩
          rw [← hpe.2, hdn n (by omega), htd n]
      cases hp : Strtol.Spec.parse white 10 u with
      | none => exact key 0 0 hupos
      | some q =>
        obtain ⟨n, neg, mag⟩ := q
        exact key _ n ((parse_le u n neg mag hp).2 10 hulast (by decide))

theorem parse_none (c : Nat) (s : List Nat) (hc : white c = false) (hd : ¬ (48 ≤ c ∧ c ≤ 57))
    (hs : ∀ d, s.head? = some d → ¬ (48 ≤ d ∧ d ≤ 57)) : Strtol.Spec.parse white 10 (c :: s) = none := by
  have notdig : ∀ u : List Nat, (∀ d, u.head? = some d → ¬ (48 ≤ d ∧ d ≤ 57)) → u.takeWhile (Strtol.Spec.isDigitIn 10) = [] := by
    intro u hu
    cases u with
    | nil => rfl
    | cons d u =>
      rw [List.takeWhile_cons_of_neg]
      rw [isDigitIn_iff]
      exact hu d rfl
  unfold Strtol.Spec.parse
  simp only [base10, List.drop_zero, Nat.add_zero]
  rw [List.takeWhile_cons_of_neg (by simp [hc])]
  simp only [List.length_nil, List.drop_zero, List.head?_cons, Option.some.injEq]
  rw [if_pos]
  split
  · exact notdig s hs
  · exact notdig (c :: s) (by rintro d ⟨⟩; exact hd)

/-- The loop over the name of an entry: it comes to the number behind it. -/
theorem portLoop_name (buf gap ds t tail : List Nat) (port : Nat) (hp : 1 ≤ port) (hgne : gap ≠ []) (hg : ∀ c ∈ gap, white c = true)
    (hds : ds ≠ []) (hd : ∀ c ∈ ds, 48 ≤ c ∧ c ≤ 57) (hv : num ds ≤ 65535) (m : List Nat) (pos fuel : Nat)
    (hb : buf.drop pos = m ++ (gap ++ (ds ++ 47 :: t)) ++ 0 :: tail) (h0 : 0 ∉ m ++ (gap ++ (ds ++ 47 :: t)))
    (hm : ∀ c ∈ m, white c = false ∧ ¬ (48 ≤ c ∧ c ≤ 57)) (hf : m.length < fuel) :
    ∃ fuel', fuel ≤ fuel' + m.length + 1 ∧ portLoop buf port fuel pos =
      if num ds = port then .ok (some (pos + m.length, pos + m.length + (gap.length + ds.length)))
      else portLoop buf port fuel' (pos + m.length + (gap.length + ds.length) + 1) := by
  induction fuel generalizing m pos with
  | zero => omega
  | succ fuel ih =>
    rw [portLoop]
    have hghead : ∀ c, (gap ++ (ds ++ 47 :: t)).head? = some c → white c = true := by
      intro c hc
      cases gap with
      | nil => exact absurd rfl hgne
      | cons g gap => simp at hc; subst hc; exact hg g (by simp)
    obtain ⟨c, hc1, hc2⟩ : ∃ c, buf[pos]? = some c ∧ c ≠ 0 := by
      have hpos : buf[pos]? = (m ++ (gap ++ (ds ++ 47 :: t)) ++ 0 :: tail)[0]? := by
        rw [← hb, List.getElem?_drop, Nat.add_zero]
      cases m with
      | nil =>
        cases gap with
        | nil => exact absurd rfl hgne
        | cons g gap => exact ⟨g, by rw [hpos]; simp, fun e => h0 (by simp [e])⟩
      | cons c m => exact ⟨c, by rw [hpos]; simp, fun e => h0 (by simp [e])⟩
    rw [hc1]
    simp only [if_neg hc2]
    have hsplit : m = m.takeWhile alpha ++ m.dropWhile alpha := (List.takeWhile_append_dropWhile).symm
    have hal : (buf.drop pos).takeWhile alpha = m.takeWhile alpha := by
      rw [hb]
      conv => lhs; rw [hsplit, List.append_assoc, List.append_assoc]
      apply takeWhile_split _ _ (takeWhile_all alpha m)
      intro x hx
      cases hq : m.dropWhile alpha with
      | nil =>
        rw [hq, List.nil_append] at hx
        apply alpha_white
        apply hghead
        cases gap with
        | nil => exact absurd rfl hgne
        | cons g gap => simpa using hx
      | cons y q =>
        rw [hq] at hx
        simp at hx
        subst hx
        exact head_dropWhile' alpha m y (by rw [hq]; rfl)
    rw [hal]
    generalize ha : m.takeWhile alpha = a at *
    generalize hu : m.dropWhile alpha = u at *
    have hbu : buf.drop (pos + a.length) = u ++ (gap ++ (ds ++ 47 :: t)) ++ 0 :: tail := by
      apply drop_index buf pos a
      rw [hb, hsplit]
      simp only [List.append_assoc]
    have h0u : 0 ∉ u ++ (gap ++ (ds ++ 47 :: t)) := fun h => h0 (by
      rw [hsplit, List.append_assoc]; exact List.mem_append_right _ h)
    rw [hbu]
    cases u with
    | nil =>
      have hma : m = a := by rw [hsplit, List.append_nil]
      rw [hma, List.nil_append]
      rw [strtoul_digits gap ds (47 :: t) tail hg hds hd (by intro c hc; simp at hc; omega) hv (by rw [List.nil_append] at h0u; exact h0u)]
      rw [bind_ok]
      dsimp only
      rw [otherPort_digits _ _ hv]
      refine ⟨fuel, by omega, ?_⟩
      by_cases he : num ds = port
      · rw [if_pos he, if_neg (by simp [he])]
      · rw [if_neg he, if_pos (by simp [he])]
    | cons x u =>
      have hx := hm x (by rw [hsplit]; simp)
      have hnone : Strtol.Spec.parse white 10 (x :: u ++ (gap ++ (ds ++ 47 :: t))) = none := by
        apply parse_none x _ hx.1 hx.2
        intro d hdh
        cases u with
        | nil =>
          intro hdig
          have := hghead d (by simpa using hdh)
          rw [digit_not_white d hdig] at this
          exact absurd this (by simp)
        | cons y u =>
          simp at hdh
          subst hdh
          exact (hm y (by rw [hsplit]; simp)).2
      rw [strtoul_spec _ tail h0u, hnone]
      rw [bind_ok]
      dsimp only
      rw [if_pos (otherPort_zero port hp)]
      have hlen : m.length = a.length + 1 + u.length := by rw [hsplit]; simp; omega
      obtain ⟨fuel', hf', hr⟩ := ih u (pos + a.length + 0 + 1) (by
          have := drop_index buf (pos + a.length) [x] _ (by rw [hbu]; simp only [List.cons_append, List.nil_append]; rfl)
          exact this)
        (fun h => h0u (by simp only [List.cons_append, List.mem_cons]; exact Or.inr h))
        (fun c hc => hm c (by rw [hsplit]; simp [hc])) (by omega)
      refine ⟨fuel', by omega, ?_⟩
      rw [hr, hlen]
      simp only [Nat.add_zero, Nat.add_assoc, Nat.add_comm, Nat.add_left_comm]

theorem cutBuf_eq (buf line : List Nat) : ∃ tail, cutBuf buf (line ++ [10]) = 0 :: (line.takeWhile (· ≠ 35) ++ [10]) ++ 0 :: tail := by
  unfold cutBuf
  by_cases h : 35 ∈ line
  · rw [if_pos (by simp [h])]
    have := cutComment_eq line
    unfold cutComment at this
    rw [if_pos (by simp [h])] at this
    rw [this]
    exact ⟨_, rfl⟩
  · rw [if_neg (by simp [h])]
    have := cutComment_eq line
    unfold cutComment at this
    rw [if_neg (by simp [h])] at this
    rw [this]
    exact ⟨_, rfl⟩

/-- Where no slash follows, the line adds nothing. -/
theorem noSlash (k : Nat) (s tail : List Nat) (proto : Int) (h : 47 ∉ s) : parseRest ((s.drop k ++ 0 :: tail).takeWhile (· ≠ 0)) proto = none := by
  have hm : 47 ∉ (s.drop k ++ 0 :: tail).takeWhile (· ≠ 0) := by
    intro hm
    have : ∀ (a : List Nat), 47 ∈ (a ++ 0 :: tail).takeWhile (· ≠ 0) → 47 ∈ a := by
      intro a
      induction a with
      | nil => simp
      | cons c a ih =>
        intro hx
        rw [List.cons_append] at hx
        by_cases hc : c = 0
        · rw [List.takeWhile_cons_of_neg (by simp [hc])] at hx; simp at hx
        · rw [List.takeWhile_cons_of_pos (by simp [hc])] at hx
          rcases List.mem_cons.1 hx with hx | hx
          · simp [hx]
          · exact List.mem_cons_of_mem _ (ih hx)
    exact h (List.mem_of_mem_drop (this _ hm))
  generalize (s.drop k ++ 0 :: tail).takeWhile (· ≠ 0) = q at hm
  unfold parseRest
  cases q with
  | nil => rfl
  | cons c q =>
    have : c ≠ 47 := fun e => hm (by simp [e])
    rw [if_neg (by simp [List.isPrefixOf]; intro e; exact absurd e.symm this),
      if_neg (by simp [List.isPrefixOf]; intro e; exact absurd e.symm this)]

theorem words_nil (s : List Nat) (h : words s = []) : ∀ c ∈ s, white c = true := by
  rcases split_word s with ⟨h1, _⟩ | ⟨w, r, _, _, _, _, h5, _⟩
  · intro c hc
    have hs : s = s.takeWhile white ++ s.dropWhile white := (List.takeWhile_append_dropWhile).symm
    rw [h1, List.append_nil] at hs
    rw [hs] at hc
    exact takeWhile_all white s c hc
  · rw [h5] at h; cases h

theorem byPortLine_none (proto port : Int) (buf s tail : List Nat) (pos : Nat) (hb : buf.drop pos = s ++ 0 :: tail)
    (h0 : 0 ∉ s) (hlast : s = [] ∨ s.getLast? = some 10) (h47 : 47 ∉ s) (fuel : Nat) (hf : s.length < fuel)
    (hl : portLoop buf port (buf.length + 1) 1 = portLoop buf port fuel pos) : byPortLine proto port buf = .ok [] := by
  obtain ⟨r, hr1, hr2⟩ := portLoop_ends buf tail port s pos fuel hb h0 hlast hf
  unfold byPortLine
  rw [hl, hr1, bind_ok]
  cases r with
  | none => rfl
  | some q =>
    obtain ⟨p, e⟩ := q
    obtain ⟨k, hk⟩ := hr2 p e rfl
    dsimp only
    split
    · rfl
    · rw [hk, noSlash k s tail proto h47]

theorem byPortLine_good (proto : Int) (port : Nat) (hp : 1 ≤ port) (buf line : List Nat) (hg : GoodPortLine line) :
    byPortLine proto port (cutBuf buf (line ++ [10])) =
      .ok (match entry line with
        | none => []
        | some e => if e.port = port then servOf proto e.name port e.proto else []) := by
  obtain ⟨⟨_, h0, _, hg⟩, hcount, hdig⟩ := hg
  obtain ⟨tail, htail⟩ := cutBuf_eq buf line
  rw [htail]
  generalize hB : 0 :: (line.takeWhile (· ≠ 35) ++ [10]) ++ 0 :: tail = B
  have hB1 : B.drop 1 = (line.takeWhile (· ≠ 35) ++ [10]) ++ 0 :: tail := by rw [← hB]; rfl
  have hr0 : 0 ∉ line.takeWhile (· ≠ 35) ++ [10] := by
    simp only [List.mem_append, List.mem_singleton, not_or]
    exact ⟨fun h => h0 ((List.takeWhile_prefix _).subset h), by decide⟩
  have hlen : B.length = (line.takeWhile (· ≠ 35) ++ [10]).length + tail.length + 2 := by rw [← hB]; simp; omega
  rcases hg with hg | ⟨hh, n, pp, as, hl, ds, p, hpp, hds, hd, hv, hpr⟩
  · have he : entry line = none := by unfold entry; rw [hg]
    rw [he]
    apply byPortLine_none proto port B (line.takeWhile (· ≠ 35) ++ [10]) tail 1 hB1 hr0 (Or.inr (by simp)) _ (B.length + 1) (by omega) rfl
    intro h
    simp only [List.mem_append, List.mem_singleton] at h
    rcases h with h | h
    · have := words_nil _ hg 47 h
      exact absurd this (by decide)
    · omega
  · have he := entry_eq line n pp ds p as hl hpp hd
    rw [he]
    have hh' : ∀ c, (line.takeWhile (· ≠ 35)).head? = some c → white c = false := by
      intro c hc
      cases line with
      | nil => simp at hc
      | cons d line =>
        by_cases hd : d = 35
        · rw [List.takeWhile_cons_of_neg (by simp [hd])] at hc; simp at hc
        · rw [List.takeWhile_cons_of_pos (by simp [hd])] at hc
          simp at hc; subst hc; exact hh d rfl
    obtain ⟨r, ⟨sh⟩⟩ := shape_of _ n pp ds p as hh' hl hpp
    have heq := sh.eq
    have hcnt : 47 ∉ p ++ r := by
      intro hm
      have h1 := congrArg (List.count 47) heq
      rw [List.count_append] at h1
      generalize (line.takeWhile (· ≠ 35)).count 47 = X at hcount h1
      have h2 := List.count_pos_iff.2 hm
      simp only [List.count_append, List.count_cons, List.count_nil, List.cons_append, beq_self_eq_true, if_true] at h1 h2
      simp at h1
      omega
    rw [heq] at hB1 hr0 hlen
    have hlast : (line.takeWhile (· ≠ 35) ++ [10]).getLast? = some 10 := by simp
    rw [heq] at hlast
    obtain ⟨fuel', hf', hloop⟩ := portLoop_name B sh.gap ds (p ++ r) tail port hp sh.gap_ne sh.gap_white hds hd hv n 1 (B.length + 1)
      hB1 hr0 (fun c hc => ⟨sh.n_white c hc, hdig n (by rw [hl]; rfl) c hc⟩) (by rw [hlen]; simp; omega)
    by_cases hport : num ds = port
    · rw [if_pos hport] at hloop
      simp only [hport, if_true]
      unfold byPortLine
      rw [hloop, bind_ok]
      dsimp only
      have hBeq : B = [0] ++ n ++ (sh.gap ++ (ds ++ (47 :: p ++ r)) ++ 0 :: tail) := by
        rw [← hB, heq]; simp
      have htake : B.take (1 + n.length) = 0 :: n := by
        rw [hBeq, show 1 + n.length = ([0] ++ n).length from by simp; omega, List.take_left]
        rfl
      have hn0 : ∀ c ∈ n.reverse, (fun c => decide (c ≠ 0)) c = true := by
        intro c hc
        have : c ∈ n := List.mem_reverse.1 hc
        have hne : c ≠ 0 := fun e => hr0 (by rw [← e]; exact List.mem_append_left _ this)
        simp [hne]
      have hbef : (B.take (1 + n.length)).reverse.takeWhile (· ≠ 0) = n.reverse := by
        rw [htake, List.reverse_cons]
        exact takeWhile_split _ _ hn0 (by simp)
      rw [hbef]
      have hfil : n.reverse.filter (fun c => !space c) = n.reverse := by
        apply List.filter_eq_self.2
        intro c hc
        rw [space_eq]
        simp [sh.n_white c (List.mem_reverse.1 hc)]
      rw [hfil, List.length_reverse, if_neg (by have := List.length_pos_iff.2 sh.n_ne; omega)]
      have hrest : (B.drop (1 + n.length + (sh.gap.length + ds.length))).takeWhile (· ≠ 0) = 47 :: p ++ r := by
        rw [show B.drop (1 + n.length + (sh.gap.length + ds.length)) = 47 :: p ++ r ++ 0 :: tail from by
          rw [hBeq, show 1 + n.length + (sh.gap.length + ds.length) = ([0] ++ n ++ (sh.gap ++ ds)).length from by simp; omega,
            show [0] ++ n ++ (sh.gap ++ (ds ++ (47 :: p ++ r)) ++ 0 :: tail) = ([0] ++ n ++ (sh.gap ++ ds)) ++ (47 :: p ++ r ++ 0 :: tail)
              from by simp, List.drop_left]]
        apply takeWhile_split
        · intro c hc
          have hne : c ≠ 0 := fun e => hr0 (by
            rw [← e]
            exact List.mem_append_right _ (List.mem_append_right _ (List.mem_append_right _ hc)))
          simp [hne]
        · simp
      rw [hrest, parseRest_eq p r proto hpr sh.r_white]
      have hname : (B.drop (1 + n.length - n.length)).take n.length = n := by
        rw [show 1 + n.length - n.length = 1 from by omega, hB1]
        rw [List.append_assoc, List.take_left]
      rw [hname]
      unfold servOf
      by_cases h1 : p = udp
      · rw [if_pos h1, if_pos h1]
        by_cases h2 : proto = 6
        · rw [if_pos h2, if_pos h2]
        · rw [if_neg h2, if_neg h2]
      · rw [if_neg h1, if_neg h1]
        by_cases h2 : p = tcp
        · rw [if_pos h2, if_pos h2]
          by_cases h3 : proto = 17
          · rw [if_pos h3, if_pos h3]
          · rw [if_neg h3, if_neg h3]
        · rw [if_neg h2, if_neg h2]
    · rw [if_neg hport] at hloop
      simp only [hport, if_false]
      apply byPortLine_none proto port B (p ++ r) tail _ ?_ ?_ ?_ hcnt fuel' ?_ hloop
      · have := drop_index B 1 (n ++ sh.gap ++ ds ++ [47]) (p ++ r ++ 0 :: tail) (by rw [hB1]; simp)
        rw [← this]
        congr 1
        simp
        omega
      · intro h
        apply hr0
        exact List.mem_append_right _ (List.mem_append_right _ (List.mem_append_right _ (List.mem_cons_of_mem _ h)))
      · cases hq : p ++ r with
        | nil => left; rfl
        | cons x q =>
          right
          rw [List.cons_append, hq] at hlast
          rw [show n ++ (sh.gap ++ (ds ++ 47 :: x :: q)) = (n ++ sh.gap ++ ds ++ [47]) ++ (x :: q) from by simp,
            List.getLast?_append] at hlast
          cases hx : (x :: q).getLast? with
          | none => simp at hx
          | some y => rw [hx] at hlast; simpa using hlast
      · rw [hlen] at hf'
        simp at hf' ⊢
        omega

theorem byPortLines_good (proto : Int) (port : Nat) (hp : 1 ≤ port) (ls : List (List Nat)) (hg : ∀ l ∈ ls, GoodPortLine l) (buf : List Nat) :
    byPortLines proto port buf (ls.map (fun l => l ++ [10])) =
      .ok ((ls.filterMap entry).flatMap (fun e => if e.port = port then servOf proto e.name port e.proto else [])) := by
  induction ls generalizing buf with
  | nil => rfl
  | cons l ls ih =>
    rw [List.map_cons, byPortLines, byPortLine_good proto port hp buf l (hg l (by simp)), bind_ok,
      ih (fun x hx => hg x (by simp [hx])), bind_ok]
    cases he : entry l with
    | none => rw [List.filterMap_cons_none he]; rfl
    | some e => rw [List.filterMap_cons_some he]; rfl

theorem servOf_cases (proto : Option (List Nat)) (hp : proto = none ∨ proto = some tcp ∨ proto = some udp) (port : Nat) (hv : port ≤ 65535) (e : Entry) :
    (servesPort port proto e = false ∧ (if e.port = port then servOf (iproto proto) e.name port e.proto else []) = []) ∨
    (servesPort port proto e = true ∧ ∃ s, (if e.port = port then servOf (iproto proto) e.name port e.proto else []) = [s] ∧
      servent proto s = .ok (some ⟨e.name, port, e.proto⟩)) := by
  have hport : ((port : Int) % 65536).toNat = port := by omega
  by_cases hpt : e.port = port
  · rw [if_pos hpt]
    unfold servesPort servOf
    rw [show (e.port == port) = true from by simpa using hpt]
    by_cases h1 : e.proto = udp
    · rcases hp with rfl | rfl | rfl
      · right
        exact ⟨by rw [h1]; decide, ⟨port, 17, 2, some e.name⟩, by rw [if_pos h1, if_neg (by decide)], by simp [servent, hport, h1, udp]⟩
      · left
        exact ⟨by rw [h1]; decide, by rw [if_pos h1, if_pos (by decide)]⟩
      · right
        exact ⟨by rw [h1]; decide, ⟨port, 17, 2, some e.name⟩, by rw [if_pos h1, if_neg (by decide)], by simp [servent, hport, h1]⟩
    · by_cases h2 : e.proto = tcp
      · rcases hp with rfl | rfl | rfl
        · right
          exact ⟨by rw [h2]; decide, ⟨port, 6, 1, some e.name⟩, by rw [if_neg h1, if_pos h2, if_neg (by decide)], by simp [servent, hport, h2, tcp]⟩
        · right
          exact ⟨by rw [h2]; decide, ⟨port, 6, 1, some e.name⟩, by rw [if_neg h1, if_pos h2, if_neg (by decide)], by simp [servent, hport, h2]⟩
        · left
          exact ⟨by rw [h2]; decide, by rw [if_neg h1, if_pos h2, if_pos (by decide)]⟩
      · left
        exact ⟨by simp [h1, h2], by rw [if_neg h1, if_neg h2]⟩
  · left
    refine ⟨?_, if_neg hpt⟩
    unfold servesPort
    rw [show (e.port == port) = false from by simpa using hpt]
    simp

/-- **C84 (getservbyport).** In a file of well-formed lines in which no name has a digit and no alias a slash, for every port from 1 on and
for the protocol tcp, udp or none at all, the answer is the first entry with this port and this protocol, under its official
name; if there is none, it is NULL. Missing: names with digits (`digits_violated`), the last line without a newline (`stale_violated`), and what is missing in
`getservbyname_partial`. -/
theorem getservbyport_partial (ls : List (List Nat)) (hg : ∀ l ∈ ls, GoodPortLine l) (port : Nat) (h1 : 1 ≤ port) (h2 : port ≤ 65535)
    (proto : Option (List Nat)) (hp : proto = none ∨ proto = some tcp ∨ proto = some udp) :
    getservbyport (some (Db.file ls)) port proto =
      .ok (((ls.filterMap entry).find? (servesPort port proto)).map (fun e => ⟨e.name, e.port, e.proto⟩)) := by
  unfold getservbyport
  dsimp only
  rw [fgetsLines_good ls (fun l hl => (hg l hl).1), byPortLines_good (iproto proto) port h1 ls hg _, bind_ok]
  generalize ls.filterMap entry = es
  induction es with
  | nil => rfl
  | cons e es ih =>
    rw [List.flatMap_cons]
    rcases servOf_cases proto hp port h2 e with ⟨k1, k2⟩ | ⟨k1, s, k2, k3⟩
    · rw [k2, List.nil_append, List.find?_cons_of_neg (by simp [k1])]
      exact ih
    · rw [k2, List.find?_cons_of_pos k1]
      have : e.port = port := by
        unfold servesPort at k1
        simp only [Bool.and_eq_true, beq_iff_eq] at k1
        exact k1.1.1
      simp only [List.cons_append, Option.map_some, this]
      exact k3

/-- **C84 (numbers).** A decimal number up to 65535 as the service of getaddrinfo stands for this port, with tcp for a stream socket, udp
for a datagram socket, and both when the socket type and the protocol are left open; the file is not asked. -/
theorem numeric_service (file : Option (List Nat)) (numericOnly : Bool) (ds : List Nat) (hne : ds ≠ []) (hd : ∀ c ∈ ds, 48 ≤ c ∧ c ≤ 57)
    (hv : ds.foldl (fun v c => 10 * v + (c - 48)) 0 ≤ 65535) :
    let port : Int := ((ds.foldl (fun v c => 10 * v + (c - 48)) 0 : Nat) : Int)
    lookupByName file (some ds) 0 0 numericOnly = .ok (.found [⟨port, 6, 1, none⟩, ⟨port, 17, 2, none⟩]) ∧
    lookupByName file (some ds) 0 1 numericOnly = .ok (.found [⟨port, 6, 1, none⟩]) ∧
    lookupByName file (some ds) 6 1 numericOnly = .ok (.found [⟨port, 6, 1, none⟩]) ∧
    lookupByName file (some ds) 0 2 numericOnly = .ok (.found [⟨port, 17, 2, none⟩]) ∧
    lookupByName file (some ds) 17 2 numericOnly = .ok (.found [⟨port, 17, 2, none⟩]) ∧
    lookupByName file (some ds) 17 1 numericOnly = .ok (.err 7) ∧
    lookupByName file (some ds) 6 2 numericOnly = .ok (.err 7) := by
  have h := strtoul_digits [] ds [] [] (by simp) hne hd (by simp) hv (by
    simp only [List.nil_append, List.append_nil]
    intro h
    have := hd 0 h
    omega)
  simp only [List.nil_append, List.append_nil, List.length_nil, Nat.zero_add] at h
  have hm : ((num ds : Nat) : Int) % 2 ^ 32 = num ds := Int.emod_eq_of_lt (by omega) (by unfold num; omega)
  cases ds with
  | nil => exact absurd rfl hne
  | cons c ds =>
    refine ⟨?_, ?_, ?_, ?_, ?_, rfl, rfl⟩
    all_goals
      unfold lookupByName
      simp only [h, bind_ok, hm, List.drop_length, if_true]
      rfl

/-! ## Examples and counterexamples -/

/-- "http 80/tcp www # web", "# nothing", "domain 53/udp", "http 8080/udp" -/
def sample : List (List Nat) :=
  [[104, 116, 116, 112, 9, 56, 48, 47, 116, 99, 112, 32, 119, 119, 119, 32, 35, 32, 119, 101, 98],
   [35, 32, 110, 111],
   [100, 111, 109, 97, 105, 110, 32, 32, 53, 51, 47, 117, 100, 112],
   [104, 116, 116, 112, 32, 56, 48, 56, 48, 47, 117, 100, 112]]

theorem sample_good : ∀ l ∈ sample, GoodPortLine l := by
  intro l hl
  simp only [sample, List.mem_cons, List.not_mem_nil, or_false] at hl
  rcases hl with rfl | rfl | rfl | rfl
  · refine ⟨⟨by decide, by decide, by decide, Or.inr ⟨by decide, [104, 116, 116, 112], [56, 48, 47, 116, 99, 112], [[119, 119, 119]], by decide,
      [56, 48], tcp, by decide, by decide, by decide, by decide, Or.inl rfl⟩⟩, by decide, ?_⟩
    rw [show (words (List.takeWhile (fun x => decide (x ≠ 35)) [104, 116, 116, 112, 9, 56, 48, 47, 116, 99, 112, 32, 119, 119, 119, 32, 35, 32, 119,
      101, 98])).head? = some [104, 116, 116, 112] from by decide]
    rintro n ⟨⟩
    decide
  · refine ⟨⟨by decide, by decide, by decide, Or.inl (by decide)⟩, by decide, ?_⟩
    rw [show (words (List.takeWhile (fun x => decide (x ≠ 35)) [35, 32, 110, 111])).head? = none from by decide]
    rintro n ⟨⟩
  · refine ⟨⟨by decide, by decide, by decide, Or.inr ⟨by decide, [100, 111, 109, 97, 105, 110], [53, 51, 47, 117, 100, 112], [], by decide,
      [53, 51], udp, by decide, by decide, by decide, by decide, Or.inr (Or.inl rfl)⟩⟩, by decide, ?_⟩
    rw [show (words (List.takeWhile (fun x => decide (x ≠ 35)) [100, 111, 109, 97, 105, 110, 32, 32, 53, 51, 47, 117, 100, 112])).head? =
      some [100, 111, 109, 97, 105, 110] from by decide]
    rintro n ⟨⟩
    decide
  · refine ⟨⟨by decide, by decide, by decide, Or.inr ⟨by decide, [104, 116, 116, 112], [56, 48, 56, 48, 47, 117, 100, 112], [], by decide,
      [56, 48, 56, 48], udp, by decide, by decide, by decide, by decide, Or.inr (Or.inl rfl)⟩⟩, by decide, ?_⟩
    rw [show (words (List.takeWhile (fun x => decide (x ≠ 35)) [104, 116, 116, 112, 32, 56, 48, 56, 48, 47, 117, 100, 112])).head? =
      some [104, 116, 116, 112] from by decide]
    rintro n ⟨⟩
    decide

/-- "www", any protocol: 80/tcp. -/
example : getservbyname (some (Db.file sample)) [119, 119, 119] none = .ok (some ⟨[119, 119, 119], 80, tcp⟩) := by
  rw [getservbyname_partial sample (fun l hl => (sample_good l hl).1) [119, 119, 119] (by decide) (by decide) (by decide) (by decide)
    (by rintro ⟨sign, ds, h1, h2, h3, h4⟩
        rcases h2 with rfl | rfl | rfl
        · rw [List.nil_append] at h1; subst h1; have := h4 119 (by simp); omega
        · simp at h1
        · simp at h1) none (Or.inl rfl)]
  decide +kernel

/-- Port 8080 over udp. -/
example : getservbyport (some (Db.file sample)) 8080 (some udp) = .ok (some ⟨[104, 116, 116, 112], 8080, udp⟩) := by
  rw [getservbyport_partial sample sample_good 8080 (by decide) (by decide) _ (Or.inr (Or.inr rfl))]
  decide +kernel

/-- **C84 fails**: "www 80/sctp" is not found, although no protocol is asked for; and with "sctp" asked for, the tcp entry is given. -/
theorem other_proto_violated :
    getservbyname (some (Db.file [[119, 32, 56, 48, 47, 115, 99, 116, 112]])) [119] none = .ok none ∧
    getservbyname (some (Db.file [[119, 32, 56, 48, 47, 116, 99, 112]])) [119] (some [115, 99, 116, 112]) = .ok (some ⟨[119], 80, [115, 99, 116, 112]⟩) := by
  decide +kernel

/-- **C84 fails**: asked for the alias "www" of "http 80/tcp www", the answer has the name "www" and not "http". -/
theorem alias_violated : ∃ e, getservbyname (some (Db.file sample)) [119, 119, 119] none = .ok (some e) ∧ e.name ≠ [104, 116, 116, 112] :=
  ⟨⟨[119, 119, 119], 80, tcp⟩, by decide +kernel, by decide⟩

/-- **C84 fails**: getservbyname("80", NULL) reads a string that was never constructed; and "80/tcp" is taken for a name. -/
theorem numeric_violated :
    getservbyname (some (Db.file sample)) [56, 48] none = .ub ∧
    getservbyname (some (Db.file sample)) [56, 48, 47, 116, 99, 112] none = .ok (some ⟨[56, 48, 47, 116, 99, 112], 80, tcp⟩) := by
  decide +kernel

/-- **C84 fails**: "w 4294967376/tcp" (2^32 + 80) is port 80; "w 2147483648/tcp" is port 0. The numeric service "65616" is port 80. -/
theorem big_port_violated :
    getservbyname (some (Db.file [[119, 32, 52, 50, 57, 52, 57, 54, 55, 51, 55, 54, 47, 116, 99, 112]])) [119] none = .ok (some ⟨[119], 80, tcp⟩) ∧
    getservbyname (some (Db.file [[119, 32, 50, 49, 52, 55, 52, 56, 51, 54, 52, 56, 47, 116, 99, 112]])) [119] none = .ok (some ⟨[119], 0, tcp⟩) ∧
    lookupByName none (some [54, 53, 54, 49, 54]) 6 1 true = .ok (.found [⟨65616, 6, 1, none⟩]) ∧ 65616 % 65536 = 80 := by
  decide +kernel

/-- **C84 fails**: "w 80/udplite" is given as udp. -/
theorem udplite_violated :
    getservbyname (some (Db.file [[119, 32, 56, 48, 47, 117, 100, 112, 108, 105, 116, 101]])) [119] none = .ok (some ⟨[119], 80, udp⟩) := by
  decide +kernel

/-- **C84 fails**: an entry "x25 25/tcp" is not found by its port 25, as the number is found in the name. -/
theorem digits_violated :
    GoodLine [120, 50, 53, 32, 50, 53, 47, 116, 99, 112] ∧
    getservbyport (some (Db.file [[120, 50, 53, 32, 50, 53, 47, 116, 99, 112]])) 25 none = .ok none ∧
    ([[120, 50, 53, 32, 50, 53, 47, 116, 99, 112]].filterMap entry).any (servesPort 25 none) = true := by
  refine ⟨⟨by decide, by decide, by decide, Or.inr ⟨by decide, [120, 50, 53], [50, 53, 47, 116, 99, 112], [], by decide,
      [50, 53], tcp, by decide, by decide, by decide, by decide, Or.inl rfl⟩⟩, ?_⟩
  decide +kernel

/-- **C84 fails**: when the last line has no newline, the search runs on over what earlier lines left in the buffer. With the two lines
"#       old 9/tcp" and "k 1/tcp", and no newline at the end, port 9 is "old", which is only in a comment. -/
theorem stale_violated :
    getservbyport (some ([35, 32, 32, 32, 32, 32, 32, 32, 111, 108, 100, 32, 57, 47, 116, 99, 112, 10] ++
      [107, 32, 49, 47, 116, 99, 112])) 9 none = .ok (some ⟨[111, 108, 100], 9, tcp⟩) ∧
    [[35, 32, 32, 32, 32, 32, 32, 32, 111, 108, 100, 32, 57, 47, 116, 99, 112], [107, 32, 49, 47, 116, 99, 112]].filterMap entry =
      [⟨[107], 1, tcp, []⟩] := by
  decide +kernel

/-- **C84 fails**: a line of more than 127 characters is taken for two lines. Here the name of port 7 is 127 times "c" and an "x", and the
service "x" is found. -/
theorem long_line_violated :
    getservbyname (some (Db.file [List.replicate 126 99 ++ [99, 120, 32, 55, 47, 116, 99, 112]])) [120] none = .ok (some ⟨[120], 7, tcp⟩) ∧
    ∀ e, entry (List.replicate 126 99 ++ [99, 120, 32, 55, 47, 116, 99, 112]) = some e → serves [120] none e = false := by
  refine ⟨by decide +kernel, ?_⟩
  intro e he
  have : entry (List.replicate 126 99 ++ [99, 120, 32, 55, 47, 116, 99, 112]) = some ⟨List.replicate 127 99 ++ [120], 7, tcp, []⟩ := by
    decide +kernel
  rw [this] at he
  cases he
  decide +kernel

end Mlibc.Services
