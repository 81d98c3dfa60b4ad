import Verif.Shell.Fnmatch
/-
C99, further: strings that are not ASCII. Bytes that begin no character, and characters of several bytes.
-/
namespace Mlibc.Fnmatch

/-- A character that stands for itself in a pattern. -/
def Ordinary (c : Nat) : Prop := 0 < c ∧ c < 128 ∧ c ≠ 42 ∧ c ≠ 63 ∧ c ≠ 91 ∧ c ≠ 92

theorem patNext_ordinary (env : Env) (ne : Bool) {c : Nat} (h : Ordinary c) (p : List Nat) :
    patNext env ne (c :: p) = (.chr c, 1) := by
  obtain ⟨h0, h1, h2, h3, h4, h5⟩ := h
  simp [patNext, h2, h3, h4, h5, Nat.not_le.2 h1]

theorem skipInvalid_suffix (env : Env) (s : List Nat) : ∃ pre, s = pre ++ skipInvalid env s ∧ ∀ c ∈ pre, 128 ≤ c := by
  induction s with
  | nil => exact ⟨[], rfl, by simp⟩
  | cons c s ih =>
    unfold skipInvalid
    split
    · next h =>
      obtain ⟨pre, h1, h2⟩ := ih
      refine ⟨c :: pre, by rw [List.cons_append, ← h1], ?_⟩
      intro d hd
      rcases List.mem_cons.1 hd with rfl | hd
      · simp only [strNext] at h
        split at h
        · assumption
        · simp at h; omega
      · exact h2 d hd
    · exact ⟨[], rfl, by simp⟩

theorem compLoop_char (env : Env) (c : Nat) (hc : Ordinary c) (p s : List Nat) (fuel : Nat) (hs : ∀ x ∈ s, 0 < x)
    (hmb : ∀ x w k, env.mb x = some (w, k) → 128 ≤ w ∧ 0 < k) :
    compLoop env {} (fuel + 2) (c :: 42 :: p) s =
      (match s with
       | [] => .short
       | d :: s' => if d = c then .star p s' else .differs) := by
  conv => lhs; unfold compLoop
  rw [patNext_ordinary env _ hc]
  cases s with
  | nil => simp [strNext]
  | cons d s' =>
    have hd := hs d (by simp)
    simp only
    by_cases h : d ≥ 128
    · have hne : d ≠ c := by have := hc.2.1; omega
      rw [if_neg hne]
      simp only [strNext, if_pos h]
      cases hm : env.mb (d :: s') with
      | none =>
        simp only [fits]
        rw [if_neg (by decide)]
        simp
      | some q =>
        obtain ⟨w, k⟩ := q
        have := hmb _ _ _ hm
        simp only [fits]
        rw [if_neg (by omega)]
        have : (w : Int) ≠ c := by have := hc.2.1; omega
        simp [this]
    · simp only [strNext, if_neg h]
      rw [if_neg (by omega)]
      by_cases hdc : d = c
      · subst hdc
        simp [fits, compLoop, patNext]
      · have : (d : Int) ≠ c := by omega
        simp [fits, hdc, this]

/-- **`*c*` matches exactly the strings that contain the byte c**, whatever else is in them: characters of
several bytes and bytes that begin no character are passed over, none is taken for the end of the string. -/
theorem contains_spec (env : Env) (c : Nat) (hc : Ordinary c) (hmb : ∀ x w k, env.mb x = some (w, k) → 128 ≤ w ∧ 0 < k)
    (hin : ∀ x w k, env.mb x = some (w, k) → ∀ b ∈ x.take k, 128 ≤ b) (s : List Nat) (hs : ∀ x ∈ s, 0 < x) :
    fnmatch env {} [42, c, 42] s = some (decide (c ∈ s)) := by
  have main : ∀ n (s : List Nat), s.length ≤ n → (∀ x ∈ s, 0 < x) → ∀ fuel, s.length + 2 ≤ fuel →
      sea env {} fuel [c, 42] s = some (decide (c ∈ s)) := by
    intro n
    induction n with
    | zero =>
      intro s hl hs fuel hf
      have : s = [] := List.length_eq_zero_iff.1 (by omega)
      subst this
      obtain ⟨fuel, rfl⟩ : ∃ f, fuel = f + 1 := ⟨fuel - 1, by omega⟩
      unfold sea
      rw [show [c, 42].length + 1 = 1 + 2 from rfl, compLoop_char env c hc [] [] _ (by simp) hmb]
      simp
    | succ n ih =>
      intro s hl hs fuel hf
      obtain ⟨fuel, rfl⟩ : ∃ f, fuel = f + 1 := ⟨fuel - 1, by omega⟩
      unfold sea
      rw [show [c, 42].length + 1 = 1 + 2 from rfl, compLoop_char env c hc [] s _ hs hmb]
      cases s with
      | nil => simp
      | cons d s' =>
        simp only [List.length_cons] at hl hf
        by_cases hdc : d = c
        · subst hdc
          obtain ⟨fuel, rfl⟩ : ∃ f, fuel = f + 1 := ⟨fuel - 1, by omega⟩
          simp [sea]
        · simp only [hdc, if_false]
          rw [if_neg (by simp)]
          -- the next place
          have hadv : ∃ pre, d :: s' = pre ++ advance env (d :: s') ∧ c ∉ pre ∧ pre ≠ [] := by
            have hlt := hc.2.1
            unfold advance
            by_cases h : d ≥ 128
            · simp only [strNext, if_pos h]
              cases hm : env.mb (d :: s') with
              | none =>
                obtain ⟨pre, h1, h2⟩ := skipInvalid_suffix env s'
                refine ⟨d :: pre, ?_, ?_, by simp⟩
                · simp only [List.tail_cons, Int.reduceNeg, gt_iff_lt, Int.reduceLT, if_false]
                  rw [List.cons_append, ← h1]
                · intro hcm
                  rcases List.mem_cons.1 hcm with rfl | hcm
                  · exact hdc rfl
                  · have := h2 c hcm; omega
              | some q =>
                obtain ⟨w, k⟩ := q
                have h1 := hmb _ _ _ hm
                have h2 := hin _ _ _ hm
                refine ⟨(d :: s').take k, ?_, ?_, ?_⟩
                · simp only
                  rw [if_pos (by omega), List.take_append_drop]
                · intro hcm; have := h2 c hcm; omega
                · obtain ⟨k, rfl⟩ : ∃ j, k = j + 1 := ⟨k - 1, by omega⟩
                  simp
            · simp only [strNext, if_neg h]
              have := hs d (by simp)
              refine ⟨[d], ?_, by simpa using fun h => hdc h.symm, by simp⟩
              rw [if_pos (by omega)]
              simp
          obtain ⟨pre, h1, h2, h3⟩ := hadv
          have hlen : (advance env (d :: s')).length + 1 ≤ s'.length + 1 := by
            have := congrArg List.length h1
            have : 0 < pre.length := List.length_pos_iff.2 h3
            simp only [List.length_cons, List.length_append] at *
            omega
          rw [ih _ (by omega) (fun x hx => hs x (by rw [h1]; simp [hx])) fuel (by omega)]
          congr 1
          rw [decide_eq_decide]
          generalize advance env (d :: s') = t at h1
          rw [h1, List.mem_append]
          simp [h2]
  have htail : tailScan env {} 3 [c, 42] [c, 42] 0 = some (some ([], 0)) := by
    have h2 : patNext env false [42] = (.star, 1) := by simp [patNext]
    simp [tailScan, patNext_ordinary env _ hc, h2]
  unfold fnmatch internal
  simp only [Bool.false_eq_true, if_false, false_and, List.length_cons, List.length_nil]
  have hh : headLoop env {} (0 + 1 + 1 + 1 + 1) [42, c, 42] s = .star [c, 42] s := by simp [headLoop, patNext]
  rw [hh]
  simp only [List.length_cons, List.length_nil]
  rw [show 0 + 1 + 1 + 1 = 3 from rfl, htail]
  simp only [Nat.not_lt_zero, if_false, back, List.length_reverse, List.drop_length, ne_eq, not_true]
  have ht : tailLoop env {} 3 [] [] = some true := by simp [tailLoop, strNext, patNext]
  rw [ht]
  simp only [List.length_nil, Nat.sub_zero, List.reverse_reverse]
  rw [show List.take (0 + 1 + 1) [c, 42] = [c, 42] from rfl]
  exact main s.length s (Nat.le_refl _) hs _ (by omega)

/-- **`*` and a character of several bytes** matches every string that ends with the character, whatever is in
front of it; and so does `*?`: the last character is not cut in two. -/
theorem suffix_spec (env : Env) (lead : Nat) (conts : List Nat) (w : Nat) (hl : 192 ≤ lead)
    (hct : ∀ b ∈ conts, 128 ≤ b ∧ b < 192) (hw : 0 < w) (hm : env.mb (lead :: conts) = some (w, conts.length + 1))
    (pre : List Nat) : fnmatch env {} (42 :: lead :: conts) (pre ++ lead :: conts) = some true ∧
      fnmatch env {} [42, 63] (pre ++ lead :: conts) = some true := by
  have hbc : ∀ (l r : List Nat), (∀ b ∈ l, 128 ≤ b ∧ b < 192) → backChar (l ++ lead :: r) = r := by
    intro l r
    induction l with
    | nil => intro _; simp only [List.nil_append, backChar]; rw [if_neg (by omega)]
    | cons b l ih =>
      intro h
      have := h b (by simp)
      simp only [List.cons_append, backChar]
      rw [if_pos ⟨this.1, this.2, by simp⟩]
      exact ih fun b hb => h b (by simp [hb])
  have hback : back 1 (pre ++ lead :: conts).reverse = (pre.reverse, 0) := by
    have e : (pre ++ lead :: conts).reverse = conts.reverse ++ lead :: pre.reverse := by simp
    rw [e]
    have := hbc conts.reverse pre.reverse (by simpa using hct)
    cases hcr : conts.reverse with
    | nil =>
      rw [hcr] at this
      simp only [List.nil_append] at this ⊢
      simp only [back]
      rw [if_neg (by omega), this]
    | cons b l =>
      rw [hcr] at this
      simp only [List.cons_append] at this ⊢
      have hb := hct b (by rw [← List.mem_reverse, hcr]; simp)
      simp only [back]
      rw [if_neg (by omega), this]
  have hsn : strNext env (lead :: conts) = ((w : Int), conts.length + 1) := by
    simp only [strNext, hm]; rw [if_pos (by omega)]
  have hdrop : (pre ++ lead :: conts).drop pre.length = lead :: conts := by simp
  have hlen : ¬ (pre ++ lead :: conts).length < 1 := by simp
  have hpos : ¬ ((w : Int) ≤ 0) := by omega
  have hpn : patNext env false (lead :: conts) = (.chr w, conts.length + 1) := by
    simp only [patNext, hm]
    rw [if_neg (by omega), if_neg (by omega), if_neg (by omega), if_neg (by omega), if_pos (by omega)]
  have hh : ∀ (n : Nat) (p s : List Nat), headLoop env {} (n + 1) (42 :: p) s = .star p s := by
    intro n p s; simp [headLoop, patNext]
  have hend : ∀ n, tailLoop env {} (n + 1) [] [] = some true := by intro n; simp [tailLoop, strNext, patNext]
  constructor
  · have hts : tailScan env {} (conts.length + 1 + 1) (lead :: conts) (lead :: conts) 0 = some (some (lead :: conts, 1)) := by
      unfold tailScan
      rw [if_neg (by simp)]
      simp only [hpn]
      rw [show (lead :: conts).drop (conts.length + 1) = [] by simp]
      simp [tailScan]
    have htl : tailLoop env {} (conts.length + 1 + 1) (lead :: conts) (lead :: conts) = some true := by
      unfold tailLoop
      simp only [hpn, hsn, hpos, if_false, fits]
      simp only [Bool.false_eq_true, if_false, true_or, decide_true, if_true]
      rw [show (lead :: conts).drop (conts.length + 1) = [] by simp]
      exact hend _
    unfold fnmatch internal
    simp only [Bool.false_eq_true, if_false, false_and, List.length_cons, hh, hts, hback, List.length_reverse,
      htl, hdrop, ne_eq, not_true]
    simp [sea]
  · have hts : tailScan env {} 2 [63] [63] 0 = some (some ([63], 1)) := by simp [tailScan, patNext]
    have htl : tailLoop env {} 2 [63] (lead :: conts) = some true := by
      unfold tailLoop
      have : patNext env false [63] = (.question, 1) := by simp [patNext]
      simp only [this, hsn, hpos, if_false, fits, if_true]
      rw [show (lead :: conts).drop (conts.length + 1) = [] by simp]
      exact hend _
    unfold fnmatch internal
    simp only [Bool.false_eq_true, if_false, false_and, List.length_cons, List.length_nil, hh, hts, hback,
      List.length_reverse, htl, hdrop, ne_eq, not_true, show 0 + 1 + 1 = 2 from rfl]
    simp [sea]

/-- "*x*" on the bytes ff, 'x', fe; and "*é" on "aé". -/
example : fnmatch ⟨fun _ => none, fun _ _ => false, id⟩ {} [42, 120, 42] [255, 120, 254] = some true := by decide
example : fnmatch ⟨fun x => if x.take 2 = [0xc3, 0xa9] then some (0xe9, 2) else none, fun _ _ => false, id⟩ {}
    [42, 0xc3, 0xa9] [97, 0xc3, 0xa9] = some true := by decide

end Mlibc.Fnmatch
