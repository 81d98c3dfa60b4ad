import Verif.Stdio.Calls
/-
`getdelim` and `getline`. Property C30. The model is in `Verif.Stdio.Calls`.
-/
set_option linter.unusedSimpArgs false
namespace Mlibc.Stdio

variable {κ σ : Type} {nfail : κ → Nat}

theorem Res_bind_ok {α β : Type} {x : Res α} {g : α → Res β} {b : β} (h : x.bind g = .ok b) :
    ∃ a, x = .ok a ∧ g a = .ok b := by
  cases x with
  | ok a => exact ⟨a, rfl, h⟩
  | ub => simp [Res.bind] at h
  | panic => simp [Res.bind] at h

theorem readTail_err {f f' : File} {k k' : κ} {u : List UInt8} {n : Nat} {r : Option (List UInt8)}
    (h : readTail f k u n = .ok (r, f', k')) : f'.err = f.err ∧ r ≠ none := by
  rw [readTail] at h
  split at h
  · obtain ⟨d, _, h⟩ := Res_bind_ok h
    cases h; simp
  · simp at h

theorem reset_err {cfg : Cfg} {f f' : File} (h : reset cfg f = .ok f') : f'.err = f.err := by
  rw [reset] at h
  split at h
  · simp at h
  · split at h
    · simp at h
    · cases h; rfl

theorem writeLoop_done {io : Io κ} : ∀ (fuel : Nat) {f f' : File} {k k' : κ},
    writeLoop io fuel f k = .ok (some (), f', k') → f'.dirtyEnd ≤ f'.ioOffset
  | 0, f, f', k, k', h => by simp [writeLoop] at h
  | fuel + 1, f, f', k, k', h => by
    rw [writeLoop] at h
    split at h
    · obtain ⟨d, _, h⟩ := Res_bind_ok h
      split at h
      · cases h
      · split at h
        · cases h
        · exact writeLoop_done fuel h
    · cases h; omega

theorem writeBack_done {io : Io κ} {cfg : Cfg} {f f' : File} {k k' : κ}
    (h : writeBack io cfg f k = .ok (some (), f', k')) :
    f'.dirtyBegin = f'.dirtyEnd ∨ f'.dirtyEnd ≤ f'.ioOffset := by
  rw [writeBack] at h
  split at h
  · next hd => cases h; exact Or.inl hd
  · split at h
    · split at h
      · split at h
        · cases h
        · exact Or.inr (writeLoop_done _ h)
      · exact Or.inr (writeLoop_done _ h)
    · split at h
      · exact Or.inr (writeLoop_done _ h)
      · cases h

theorem writeTail_line {io : Io κ} {cfg : Cfg} (hm : cfg.mode = .line) {f f' : File} {k k' : κ}
    {d : List UInt8} {n : Nat} (h : writeTail io cfg f k d = .ok (some n, f', k')) (hnl : 10 ∈ d.take n) :
    f'.dirtyBegin = f'.dirtyEnd ∨ f'.dirtyEnd ≤ f'.ioOffset := by
  rw [writeTail] at h
  split at h
  · cases h
  · split at h
    · cases h
    · simp only at h
      split at h
      · cases h
      · obtain ⟨b, _, h⟩ := Res_bind_ok h
        split at h
        · obtain ⟨⟨r, f2, k2⟩, e, h⟩ := Res_bind_ok h
          cases r with
          | none => cases h
          | some u =>
            cases h
            exact writeBack_done e
        · next hc =>
          cases h
          exfalso
          rw [writeChunk, hm] at hc hnl
          simp only [if_true] at hc hnl
          split at hc
          · simp at hc
          · next hf =>
            rw [hf] at hnl
            rw [List.findIdx?_eq_none_iff] at hf
            have := hf 10 hnl
            simp at this

/-- **C24**, line buffering: when a write to a line buffered stream is accepted and a newline is among the bytes
accepted, all bytes accepted so far have reached the file. -/
theorem line_prompt {io : Io κ} {cfg : Cfg} {dev : Device σ} {view : κ → σ} (hdev : dev.Lawful)
    (hk : Kernel io dev view nfail) (hB : 0 < cfg.bufSize) (hm : cfg.mode = .line) {f f' : File} {k k' : κ}
    {a : Stream σ} (hrep : Rep cfg dev view f k a) (hdir : a.dir ≠ .reading) {d : List UInt8} (hd : d ≠ [])
    {n : Nat} (h : write io cfg f k d = .ok (some n, f', k')) (hnl : 10 ∈ d.take n) :
    view k' = dev.put a.s (d.take n) := by
  obtain ⟨r, f1, k1, n1, dir, e1, e2, e3, e4, e5, e6⟩ := write_spec hdev hk hB hrep hdir hd
  rw [h] at e1
  cases e1
  rcases e5 with e5 | ⟨e5, _⟩
  · cases e5
  · cases e5
    have hclean : f'.dirtyBegin = f'.dirtyEnd ∨ f'.dirtyEnd ≤ f'.ioOffset := by
      rw [write, if_neg hd, if_neg (by rw [hm]; simp)] at h
      split at h
      · obtain ⟨⟨r, f2, k2⟩, _, h⟩ := Res_bind_ok h
        cases r with
        | none => cases h
        | some u =>
          obtain ⟨f3, _, h⟩ := Res_bind_ok h
          exact writeTail_line hm h hnl
      · exact writeTail_line hm h hnl
    rcases e2.phase with ⟨_, h⟩ | ⟨h, _⟩ | ⟨_, h⟩
    · exact h
    · exact absurd h e3
    · have h1 := h.data
      have : f'.offset - f'.ioOffset = 0 := by
        rcases h.dirty with ⟨_, h⟩ | ⟨h2, h3, h4⟩
        · omega
        · rcases hclean with h | h <;> omega
      rw [this, List.take_zero, hdev.put_nil] at h1
      exact h1.symm

example : (write (schedIo fileDev true) ⟨4, true, .line⟩ (File.fresh buf4) (file [] []) [97, 10, 98]).bind
    (fun r => .ok (r.1, r.2.2.st.content)) = .ok (some 2, [97, 10]) := by decide

/-- The error indicator of a stream with nothing to write back changes only when a read fails. -/
theorem read_err {io : Io κ} {cfg : Cfg} {f f' : File} {k k' : κ} {n : Nat} {r : Option (List UInt8)}
    (hd : f.dirtyBegin = f.dirtyEnd) (h : read io cfg f k n = .ok (r, f', k')) :
    f'.err = (f.err || r.isNone) := by
  rw [read] at h
  by_cases hn : n = 0
  · simp [hn] at h
  · simp only [hn, if_false] at h
    by_cases h1 : n - (f.unget.take n).length = 0
    · rw [if_pos h1] at h; cases h; simp
    · rw [if_neg h1] at h
      by_cases hm : cfg.mode = .none
      · rw [if_pos hm] at h
        rcases hr : io.read k (n - (f.unget.take n).length) with ⟨_ | d, k1⟩
        · rw [hr] at h; cases h; simp
        · rw [hr] at h; cases h; simp
      · rw [if_neg hm] at h
        split at h
        · simp at h
        · split at h
          · rw [writeBack, if_pos hd] at h
            obtain ⟨_, e, h⟩ := Res_bind_ok h
            cases e
            obtain ⟨f4, e, h⟩ := Res_bind_ok h
            have e4 := reset_err e
            rcases hr : io.read k cfg.bufSize with ⟨_ | d, k1⟩
            · rw [hr] at h; cases h; simp
            · rw [hr] at h
              simp only at h
              split at h
              · cases h; simp [e4]
              · obtain ⟨b, _, h⟩ := Res_bind_ok h
                obtain ⟨h5, h6⟩ := readTail_err h
                cases r with
                | none => simp at h6
                | some => rw [h5]; simp [e4]
          · obtain ⟨h5, h6⟩ := readTail_err h
            cases r with
            | none => simp at h6
            | some => rw [h5]; simp

theorem readLoop_err {io : Io κ} {cfg : Cfg} {f f' : File} {k k' : κ} {r : Bool × List UInt8}
    (hd : f.dirtyBegin = f.dirtyEnd) (h : readLoop io cfg 2 f k 1 [] = .ok (r, f', k')) :
    f'.err = (f.err || r.1) ∧ (r.2 = [] ∨ r.1 = false) := by
  rw [readLoop] at h
  simp only [show ¬ (1 = 0) by omega, if_false] at h
  obtain ⟨⟨d, f1, k1⟩, e, h⟩ := Res_bind_ok h
  have e1 := read_err hd e
  cases d with
  | none => cases h; simp [e1]
  | some d =>
    simp only at h
    split at h
    · cases h; simp [e1]
    · next hd0 =>
      have : 0 < d.length := List.length_pos_iff.mpr hd0
      rw [readLoop, if_pos (by omega)] at h
      cases h; simp [e1]

theorem fgetc_err {io : Io κ} {cfg : Cfg} {f f' : File} {k k' : κ} {r : Option UInt8}
    (hd : f.dirtyBegin = f.dirtyEnd) (h : fgetc io cfg f k = .ok (r, f', k')) :
    ∃ e : Bool, f'.err = (f.err || e) ∧ (e = true → r = none) ∧
      (e = true ↔ ∃ bs f1 k1, readLoop io cfg 2 f k 1 [] = .ok ((true, bs), f1, k1)) := by
  rw [fgetc, fread] at h
  simp only [Nat.succ_ne_self, or_self, if_false, if_true] at h
  obtain ⟨⟨⟨n, bs⟩, f1, k1⟩, e, h⟩ := Res_bind_ok h
  obtain ⟨⟨⟨er, bs⟩, f2, k2⟩, e', e⟩ := Res_bind_ok e
  obtain ⟨e1, e2⟩ := readLoop_err hd e'
  cases e
  cases h
  refine ⟨er, e1, ?_, ?_⟩
  · intro h; simp [h]
  · constructor
    · intro h; subst h; exact ⟨_, _, _, e'⟩
    · rintro ⟨_, _, _, e3⟩
      rw [e'] at e3; cases e3; rfl

/-- `fgetc_spec` with the error indicator. -/
theorem fgetc_full {io : Io κ} {cfg : Cfg} {dev : Device σ} {view : κ → σ} (hdev : dev.Lawful)
    (hk : Kernel io dev view nfail) (hB : 0 < cfg.bufSize) {f : File} {k : κ} {a : Stream σ}
    (hrep : Rep cfg dev view f k a) (hdir : a.dir ≠ .writing) (herr : f.err = false) :
    ∃ r f' k' a', fgetc io cfg f k = .ok (r, f', k') ∧ Rep cfg dev view f' k' a' ∧
      a'.dir ≠ .writing ∧
      (nfail k' = nfail k → f'.err = false ∧ r = (a.rest dev).head? ∧ a'.rest dev = (a.rest dev).tail ∧
        (r ≠ none → a.SkipTo dev 1 a') ∧ (r = none → a.SkipTo dev 0 a')) ∧
      (nfail k' ≠ nfail k → r = none ∧ f'.err = true ∧ nfail k < nfail k') := by
  obtain ⟨r, f1, k1, a1, e1, e2, e3, e4, e5⟩ := fgetc_spec hdev hk hB hrep hdir
  have hb : NoEofBug cfg dev a 1 := by
    by_cases hu : a.unget = []
    · exact Or.inr (Or.inl hu)
    · exact Or.inr (Or.inr (Or.inl (List.length_pos_iff.mpr hu)))
  obtain ⟨er, bs, f2, k2, a2, g1, _, _, g4, _⟩ := readLoop_spec hdev hk hB 2 f k a 1 [] (by omega) hrep hdir hb
  have hd : f.dirtyBegin = f.dirtyEnd := by
    rcases hrep.phase with ⟨h, _⟩ | ⟨_, h⟩ | ⟨h, _⟩
    · exact h.dirty
    · exact h.dirty
    · exact absurd h hdir
  obtain ⟨e, q1, q2, q3⟩ := fgetc_err hd e1
  have hk12 : k2 = k1 := by
    have h := e1
    rw [fgetc, fread] at h
    simp only [Nat.succ_ne_self, or_self, if_false, if_true] at h
    rw [g1] at h
    simp only [Res.bind] at h
    cases h; rfl
  subst hk12
  have her : e = er := by
    cases er with
    | true => exact q3.mpr ⟨_, _, _, g1⟩
    | false =>
      cases e with
      | false => rfl
      | true =>
        obtain ⟨_, _, _, h⟩ := q3.mp rfl
        rw [g1] at h; cases h
  refine ⟨r, f1, k2, a1, e1, e2, e3, ?_, ?_⟩
  · intro hf
    refine ⟨?_, e4 hf⟩
    rw [q1, herr, her]
    cases er with
    | false => rfl
    | true => have := g4.1 rfl; omega
  · intro hf
    obtain ⟨p1, p2⟩ := e5 hf
    refine ⟨p1, ?_, p2⟩
    rw [q1, herr, her]
    cases er with
    | true => rfl
    | false => exact absurd (g4.2 (by simp)) hf

theorem take_set_last {mem acc : List UInt8} {c : UInt8} (hacc : mem.take acc.length = acc)
    (h : acc.length < mem.length) : (mem.set acc.length c).take (acc.length + 1) = acc ++ [c] := by
  rw [List.take_add_one, List.getElem?_set_self h, List.take_set_of_le (Nat.le_refl _), hacc]
  rfl

theorem getdelimLoop_spec {io : Io κ} {cfg : Cfg} {dev : Device σ} {view : κ → σ} (hdev : dev.Lawful)
    (hk : Kernel io dev view nfail) (hB : 0 < cfg.bufSize) (delim : Nat) (junk : UInt8) :
    ∀ (fuel : Nat) (f : File) (k : κ) (a : Stream σ) (line : Option (List UInt8)) (n cap : Nat)
      (acc : List UInt8),
      2 * (a.rest dev).length + 1 +
        (if line.isSome && decide (0 < cap ∧ acc.length < cap - 1) then 0 else 1) ≤ fuel →
      Rep cfg dev view f k a → a.dir ≠ .writing → f.err = false →
      (line.getD []).take acc.length = acc → (acc = [] ∨ acc.length + 1 ≤ cap) →
      (∀ m, line = some m → cap = n ∧ n ≤ m.length) →
      ∃ g f' k' a', getdelimLoop io cfg delim junk fuel f k line n cap acc.length = .ok (g, f', k') ∧
        Rep cfg dev view f' k' a' ∧ a'.dir ≠ .writing ∧
        (∀ m, g.line = some m → g.n ≤ m.length) ∧
        (nfail k' = nfail k → ∃ m, g.line = some m ∧
          g.ret = some (acc.length + (firstLine delim (a.rest dev)).length) ∧
          m.take (acc.length + (firstLine delim (a.rest dev)).length + 1)
            = acc ++ firstLine delim (a.rest dev) ++ [0] ∧
          acc.length + (firstLine delim (a.rest dev)).length + 1 ≤ g.n ∧
          a.SkipTo dev (firstLine delim (a.rest dev)).length a') ∧
        (nfail k' ≠ nfail k → g.ret = none ∧ nfail k < nfail k') := by
  intro fuel
  induction fuel with
  | zero => intro f k a line n cap acc h; omega
  | succ fuel ih =>
    intro f k a line n cap acc hfuel hrep hdir herr hacc hcap hline
    rw [getdelimLoop]
    by_cases hroom : (line.isSome && decide (0 < cap ∧ acc.length < cap - 1)) = true
    · rw [if_pos hroom] at hfuel
      simp only [hroom, if_true]
      simp only [Bool.and_eq_true, decide_eq_true_eq] at hroom
      obtain ⟨hs, h0, h1⟩ := hroom
      obtain ⟨mem, rfl⟩ := Option.isSome_iff_exists.mp hs
      obtain ⟨hcn, hnm⟩ := hline mem rfl
      simp only [Option.getD_some] at hacc ⊢
      obtain ⟨r, f1, k1, a1, e1, e2, e3, e4, e5⟩ := fgetc_full hdev hk hB hrep hdir herr
      rw [e1]
      simp only [Res.bind]
      by_cases hf : nfail k1 = nfail k
      · obtain ⟨q0, q1, q2, q3, q4⟩ := e4 hf
        simp only [q0, Bool.false_eq_true, if_false]
        have hst : acc.length < mem.length := by omega
        cases r with
        | none =>
          simp only [store, hst, if_true]
          have hr : a.rest dev = [] := by
            cases h : a.rest dev with
            | nil => rfl
            | cons => rw [h] at q1; simp at q1
          refine ⟨_, f1, k1, a1, rfl, e2, e3, ?_, ?_, by simp [hf]⟩
          · intro m hm; cases hm; simp; omega
          · intro _
            rw [hr]
            simp only [firstLine, List.length_nil, Nat.add_zero, List.append_nil]
            exact ⟨_, rfl, trivial, take_set_last hacc hst, by omega, q4 rfl⟩
        | some c =>
          have hr : a.rest dev = c :: a1.rest dev := by
            rw [q2]
            cases h : a.rest dev with
            | nil => rw [h] at q1; simp at q1
            | cons x xs => rw [h] at q1; simp at q1; rw [q1]; rfl
          simp only [store, hst, if_true, List.length_set]
          have hacc1 := take_set_last (c := c) hacc hst
          by_cases hc : c.toNat = delim
          · have hst1 : acc.length + 1 < mem.length := by omega
            simp only [hc, if_true, hst1]
            have hfl : firstLine delim (a.rest dev) = [c] := by rw [hr, firstLine, if_pos hc]
            refine ⟨_, f1, k1, a1, rfl, e2, e3, ?_, ?_, by simp [hf]⟩
            · intro m hm; cases hm; simp; omega
            · intro _
              rw [hfl]
              refine ⟨_, rfl, by simp, ?_, by simp; omega, q3 (by simp)⟩
              have := take_set_last (mem := mem.set acc.length c) (acc := acc ++ [c]) (c := 0)
                (by simpa using hacc1) (by simpa using hst1)
              simpa using this
          · simp only [hc, if_false]
            have hfl : firstLine delim (a.rest dev) = c :: firstLine delim (a1.rest dev) := by
              rw [hr, firstLine, if_neg hc]
            have hlen : (a.rest dev).length = (a1.rest dev).length + 1 := by rw [hr]; rfl
            obtain ⟨g, f2, k2, a2, g1, g2, g3, g4, g5, g6⟩ := ih f1 k1 a1 (some (mem.set acc.length c)) n cap
              (acc ++ [c]) (by split <;> omega) e2 e3 q0 (by simpa using hacc1)
              (Or.inr (by simp; omega)) (by intro m hm; cases hm; simp; omega)
            rw [List.length_append, List.length_singleton] at g1
            refine ⟨g, f2, k2, a2, g1, g2, g3, g4, ?_, ?_⟩
            · intro hf2
              obtain ⟨m, p1, p2, p3, p4, p5⟩ := g5 (by omega)
              rw [hfl]
              simp only [List.length_append, List.length_cons, List.length_nil] at p2 p3 p4 ⊢
              refine ⟨m, p1, ?_, ?_, by omega, ?_⟩
              · rw [p2]; congr 1; omega
              · rw [show acc.length + ((firstLine delim (a1.rest dev)).length + 1) + 1
                  = acc.length + (0 + 1) + (firstLine delim (a1.rest dev)).length + 1 by omega, p3]
                simp
              · have := skip_skip hdev (q3 (by simp)) p5
                rwa [Nat.add_comm] at this
            · intro hf2
              have := g6 (by omega)
              exact ⟨this.1, by omega⟩
      · obtain ⟨q1, q2, q3⟩ := e5 hf
        simp only [q2, if_true]
        refine ⟨_, f1, k1, a1, rfl, e2, e3, ?_, fun h => absurd h hf, fun _ => ⟨rfl, q3⟩⟩
        intro m hm; cases hm; exact hnm
    · rw [if_neg hroom] at hfuel
      simp only [hroom, if_false]
      have hfull : line = none ∨ cap - 1 ≤ acc.length := by
        cases line with
        | none => exact Or.inl rfl
        | some m =>
          right
          simp at hroom
          by_cases h : 0 < cap
          · have := hroom h; omega
          · omega
      have hbig : acc.length + 2 ≤ (if 1024 ≤ cap then cap * 2 else 1024) := by
        have : acc.length = 0 ∨ acc.length + 1 ≤ cap := by
          rcases hcap with h | h
          · left; rw [h]; rfl
          · exact Or.inr h
        split <;> omega
      generalize hc' : (if 1024 ≤ cap then cap * 2 else 1024) = cap' at hbig ⊢
      have hml : ((line.getD []).take cap').length ≤ cap' := by simp; omega
      generalize hnm : (line.getD []).take cap' ++
        List.replicate (cap' - ((line.getD []).take cap').length) junk = nm
      have hnl : nm.length = cap' := by rw [← hnm]; simp; omega
      have hacclen : acc.length ≤ (line.getD []).length := by
        have := congrArg List.length hacc
        simp at this; omega
      have hnacc : nm.take acc.length = acc := by
        rw [← hnm, List.take_append_of_le_length (by simp; omega), List.take_take,
          Nat.min_eq_left (by omega), hacc]
      exact ih f k a (some nm) cap' cap' acc
        (by
          rw [if_pos (by simp; omega)]; omega)
        hrep hdir herr (by simpa using hnacc) (Or.inr (by omega))
        (by intro m hm; cases hm; exact ⟨rfl, by omega⟩)

/-- **C30.** `getdelim(&line, &n, delim, f)` on a stream without the error indicator, `line` being `NULL` or a block
of at least `n` bytes, returns; afterwards `n` does not exceed the size of the block. When no read of
the kernel fails: it returns -1 exactly if there is no byte left, and otherwise the block begins with the
next bytes up to and including the first delimiter (or all of them) and a terminator, the recorded size
covers these, their number without the terminator is returned, and the stream has moved past
exactly these bytes. When a read fails it returns -1. Every store is inside the block.
What is missing: a stream whose error indicator is already set (`getdelim_err_violated`). -/
theorem getdelim_partial {io : Io κ} {cfg : Cfg} {dev : Device σ} {view : κ → σ} (hdev : dev.Lawful)
    (hk : Kernel io dev view nfail) (hB : 0 < cfg.bufSize) {f : File} {k : κ} {a : Stream σ}
    (hrep : Rep cfg dev view f k a) (hdir : a.dir ≠ .writing) (herr : f.err = false)
    (hun : a.unget.length ≤ 8) (junk : UInt8) (line : Option (List UInt8)) (n delim : Nat)
    (hline : ∀ m, line = some m → n ≤ m.length) :
    ∃ fuel0, ∀ fuel, fuel0 ≤ fuel →
    ∃ g f' k' a', getdelim io cfg junk fuel f k line n delim = .ok (g, f', k') ∧
      Rep cfg dev view f' k' a' ∧ a'.dir ≠ .writing ∧ (∀ m, g.line = some m → g.n ≤ m.length) ∧
      (nfail k' = nfail k →
        (a.rest dev = [] → g.ret = none ∧ g.line = line ∧ g.n = n) ∧
        (a.rest dev ≠ [] → ∃ m, g.line = some m ∧
          g.ret = some (firstLine delim (a.rest dev)).length ∧
          m.take ((firstLine delim (a.rest dev)).length + 1) = firstLine delim (a.rest dev) ++ [0] ∧
          (firstLine delim (a.rest dev)).length + 1 ≤ g.n ∧
          a'.rest dev = (a.rest dev).drop (firstLine delim (a.rest dev)).length)) ∧
      (nfail k' ≠ nfail k → g.ret = none) := by
  refine ⟨2 * (a.rest dev).length + 2, ?_⟩
  intro fuel hfuel
  obtain ⟨r, f1, k1, a1, e1, e2, e3, e4, e5⟩ := fgetc_full hdev hk hB hrep hdir herr
  rw [getdelim, e1]
  simp only [Res.bind]
  by_cases hf : nfail k1 = nfail k
  · obtain ⟨q0, q1, q2, q3, q4⟩ := e4 hf
    cases r with
    | none =>
      have hr : a.rest dev = [] := by
        cases h : a.rest dev with
        | nil => rfl
        | cons => rw [h] at q1; simp at q1
      exact ⟨_, f1, k1, a1, rfl, e2, e3, hline, fun _ => ⟨fun _ => ⟨rfl, rfl, rfl⟩, fun h => absurd hr h⟩,
        by simp [hf]⟩
    | some c =>
      have hr : a.rest dev = c :: a1.rest dev := by
        rw [q2]
        cases h : a.rest dev with
        | nil => rw [h] at q1; simp at q1
        | cons x xs => rw [h] at q1; simp at q1; rw [q1]; rfl
      simp only [q0, Bool.false_eq_true, if_false]
      -- pushing the byte back
      have hsk := q3 (by simp)
      have hroom : ¬ f1.unget.length + 1 > ungetBufferSize := by
        rw [e2.unget, hsk.2]; simp [ungetBufferSize]; omega
      rw [unget, if_neg hroom]
      have hrep1 : Rep cfg dev view { f1 with unget := c :: f1.unget } k1
          { a1 with unget := c :: a1.unget } := by
        obtain ⟨o, f2, k2, a2, s1, s2, s3, s4⟩ := unget_refines (io := io) e2 c
        rw [step, unget, if_neg hroom] at s1
        cases s1
        cases s2 with
        | unget => exact s3
      have hrest : ({ a1 with unget := c :: a1.unget } : Stream σ).rest dev = a.rest dev := by
        rw [hr]; rfl
      obtain ⟨g, f2, k2, a2, g1, g2, g3, g4, g5, g6⟩ := getdelimLoop_spec hdev hk hB delim junk fuel
        { f1 with unget := c :: f1.unget } k1 { a1 with unget := c :: a1.unget } line n
        (if line.isNone then 512 else n) [] (by rw [hrest]; generalize (if line.isNone = true then 512 else n) = q; split <;> omega) hrep1 e3 q0 (by simp)
        (Or.inl rfl)
        (by intro m hm; refine ⟨by simp [hm], hline m hm⟩)
      rw [hrest] at g5
      refine ⟨g, f2, k2, a2, g1, g2, g3, g4, ?_, ?_⟩
      · intro hf2
        obtain ⟨m, p1, p2, p3, p4, p5⟩ := g5 (by omega)
        refine ⟨fun h => by rw [hr] at h; simp at h, fun _ => ⟨m, p1, by simpa using p2, by simpa using p3,
          by simpa using p4, ?_⟩⟩
        rw [skip_rest hdev p5, hrest]
      · intro hf2
        exact (g6 (by omega)).1
  · obtain ⟨q1, q2, q3⟩ := e5 hf
    subst q1
    exact ⟨_, f1, k1, a1, rfl, e2, e3, hline, fun h => absurd h hf, fun _ => rfl⟩

example : (getdelim (schedIo fileDev true) cfg4 7 20 (File.fresh buf4) (file [97, 98, 99, 10, 100] [some 1])
      (some [1, 2, 3, 4, 5, 6]) 6 10).bind (fun r => .ok r.1) =
    .ok ⟨some 4, some [97, 98, 99, 10, 0, 6], 6⟩ := by decide

/-- With the error indicator left set by an earlier failure, a stream with data left loses a byte and
reports -1. -/
theorem getdelim_err_violated :
    (getdelim (schedIo fileDev true) cfg4 7 20 { File.fresh buf4 with err := true } (file [97, 10, 98] [])
      (some [1, 2, 3, 4, 5, 6]) 6 10).bind (fun r => .ok (r.1, r.2.1.offset)) =
    .ok (⟨none, some [1, 2, 3, 4, 5, 6], 6⟩, 1) := by decide

end Mlibc.Stdio
