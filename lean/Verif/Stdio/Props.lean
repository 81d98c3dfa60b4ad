import Verif.Stdio.Kernel
/-
Properties C24 (output), C25 (input), C26 (position), C27 (push-back) of stdio streams.
-/
set_option linter.unusedSimpArgs false
namespace Mlibc.Stdio

variable {κ σ : Type} {nfail : κ → Nat}

/-! ## Whole histories -/

/-- A client of a stream: what it requests next, given the requests so far and their results. -/
def Client := List (Op × Out) → Option Op

/-- Run a client for at most `n` requests. -/
def runClient (io : Io κ) (cfg : Cfg) (c : Client) :
    Nat → List (Op × Out) → File → κ → Res (List (Op × Out) × File × κ)
  | 0, h, f, k => .ok (h, f, k)
  | n + 1, h, f, k =>
    match c h with
    | none => .ok (h, f, k)
    | some op =>
      (step io cfg f k op).bind fun (o, f1, k1) => runClient io cfg c n (h ++ [(op, o)]) f1 k1

/-- The client only makes requests the C standard allows, whatever results it got so far. -/
def Careful (cfg : Cfg) (dev : Device σ) (a : Stream σ) (c : Client) : Prop :=
  ∀ h b op, Steps dev a (h.map Prod.fst) (h.map Prod.snd) b → c h = some op → Allowed cfg dev b op

theorem Steps.snoc {dev : Device σ} {a b c : Stream σ} {ops : List Op} {os : List Out} {op : Op}
    {o : Out} (h : Steps dev a ops os b) (hs : Step dev b op o c) :
    Steps dev a (ops ++ [op]) (os ++ [o]) c := by
  induction h with
  | nil => exact Steps.cons hs Steps.nil
  | cons h1 _ ih => exact Steps.cons h1 (ih hs)

/-- The last request was a successful flush or seek. -/
def Settled (h : List (Op × Out)) : Prop :=
  h.getLast? = some (.flush, .done) ∨ ∃ off w, h.getLast? = some (.seek off w, .done)

theorem runClient_refines {io : Io κ} {cfg : Cfg} {dev : Device σ} {view : κ → σ}
    (hdev : dev.Lawful) (hseek : cfg.fileLike = true → dev.Seekable) (hk : Kernel io dev view nfail)
    (hB : 0 < cfg.bufSize) {a0 : Stream σ} {n0 : Nat} {c : Client} (hc : Careful cfg dev a0 c) :
    ∀ (n : Nat) (h : List (Op × Out)) (f : File) (k : κ) (a : Stream σ),
      Steps dev a0 (h.map Prod.fst) (h.map Prod.snd) a → Rep cfg dev view f k a →
      (Settled h → view k = a.s) →
      ((∃ op, (op, Out.error) ∈ h ∧ ∀ c, op ≠ .unget c) → n0 < nfail k) →
      (¬ (∃ op, (op, Out.error) ∈ h ∧ ∀ c, op ≠ .unget c) → nfail k = n0) →
      ∃ h' f' k' a', runClient io cfg c n h f k = .ok (h', f', k') ∧
        Steps dev a0 (h'.map Prod.fst) (h'.map Prod.snd) a' ∧ Rep cfg dev view f' k' a' ∧
        (Settled h' → view k' = a'.s) ∧
        ((∃ op, (op, Out.error) ∈ h' ∧ ∀ c, op ≠ .unget c) → n0 < nfail k') ∧
        (¬ (∃ op, (op, Out.error) ∈ h' ∧ ∀ c, op ≠ .unget c) → nfail k' = n0) := by
  intro n
  induction n with
  | zero => intro h f k a h1 h2 h3 h4 h5; exact ⟨h, f, k, a, rfl, h1, h2, h3, h4, h5⟩
  | succ n ih =>
    intro h f k a h1 h2 h3 h4 h5
    rw [runClient]
    cases hop : c h with
    | none => exact ⟨h, f, k, a, rfl, h1, h2, h3, h4, h5⟩
    | some op =>
      have hal := hc h a op h1 hop
      have key : ∃ o f' k' a', step io cfg f k op = .ok (o, f', k') ∧ Step dev a op o a' ∧
          Rep cfg dev view f' k' a' ∧ (Settled (h ++ [(op, o)]) → view k' = a'.s) ∧
          Honest nfail k k' (o = .error ∧ ∀ c, op ≠ .unget c) := by
        have conv : ∀ {k' : κ} {o : Out}, (∀ c, op ≠ .unget c) → Honest nfail k k' (o = .error) →
            Honest nfail k k' (o = .error ∧ ∀ c, op ≠ .unget c) := by
          intro k' o h1 h2
          exact ⟨fun h => h2.1 h.1, fun h => h2.2 (fun h3 => h ⟨h3, h1⟩)⟩
        cases op with
        | flush =>
          obtain ⟨o, f', k', a', e1, e2, e3, e4, e5⟩ := flush_refines hdev hseek hk h2 hal
          refine ⟨o, f', k', a', e1, e2, e3, ?_, conv (by simp) e5⟩
          rintro (hs | ⟨_, _, hs⟩) <;> simp at hs
          subst hs
          rw [e4 rfl]
          cases e2; rfl
        | seek off w =>
          obtain ⟨o, f', k', a', e1, e2, e3, e4, e5⟩ := seek_refines hdev (hseek hal.1) hk h2 hal
          refine ⟨o, f', k', a', e1, e2, e3, ?_, conv (by simp) e5⟩
          rintro (hs | ⟨_, _, hs⟩) <;> simp at hs
          exact e4 hs.2
        | read n =>
          obtain ⟨o, f', k', a', e1, e2, e3, e4⟩ := step_refines hdev hseek hk hB h2 hal
          exact ⟨o, f', k', a', e1, e2, e3, by rintro (hs | ⟨_, _, hs⟩) <;> simp at hs, e4⟩
        | write d =>
          obtain ⟨o, f', k', a', e1, e2, e3, e4⟩ := step_refines hdev hseek hk hB h2 hal
          exact ⟨o, f', k', a', e1, e2, e3, by rintro (hs | ⟨_, _, hs⟩) <;> simp at hs, e4⟩
        | unget c =>
          obtain ⟨o, f', k', a', e1, e2, e3, e4⟩ := step_refines hdev hseek hk hB h2 hal
          exact ⟨o, f', k', a', e1, e2, e3, by rintro (hs | ⟨_, _, hs⟩) <;> simp at hs, e4⟩
        | tell =>
          obtain ⟨o, f', k', a', e1, e2, e3, e4⟩ := step_refines hdev hseek hk hB h2 hal
          exact ⟨o, f', k', a', e1, e2, e3, by rintro (hs | ⟨_, _, hs⟩) <;> simp at hs, e4⟩
      obtain ⟨o, f', k', a', e1, e2, e3, e4, e5⟩ := key
      simp only [e1, Res.bind]
      have hmono : nfail k ≤ nfail k' := by
        by_cases hq : o = .error ∧ ∀ c, op ≠ .unget c
        · exact Nat.le_of_lt (e5.1 hq)
        · rw [e5.2 hq]; exact Nat.le_refl _
      refine ih (h ++ [(op, o)]) f' k' a' (by simpa using h1.snoc e2) e3 e4 ?_ ?_
      · rintro ⟨op', hm, hc'⟩
        rw [List.mem_append] at hm
        rcases hm with hm | hm
        · have := h4 ⟨op', hm, hc'⟩; omega
        · simp only [List.mem_singleton, Prod.mk.injEq] at hm
          obtain ⟨rfl, rfl⟩ := hm
          have h6 := e5.1 ⟨rfl, hc'⟩
          by_cases hq : ∃ op, (op, Out.error) ∈ h ∧ ∀ c, op ≠ .unget c
          · have := h4 hq; omega
          · have := h5 hq; omega
      · intro hno
        have hq : ¬ (∃ op, (op, Out.error) ∈ h ∧ ∀ c, op ≠ .unget c) := by
          rintro ⟨op', hm, hc'⟩
          exact hno ⟨op', by simp [hm], hc'⟩
        have h7 := h5 hq
        rw [e5.2 ?_, h7]
        rintro ⟨rfl, hc'⟩
        exact hno ⟨op, by simp, hc'⟩

/-- **C24–C27, all histories.** Any sequence of requests the C standard allows, made on a newly opened
stream in any buffering mode over any kernel, runs without undefined behaviour and without aborting,
every result is one that the abstract stream may give, after a successful flush or seek the
kernel's file is exactly the file as the program sees it, and some request (other than `ungetc`)
reports an error exactly when some call to the kernel failed. -/
theorem history_exact_partial {io : Io κ} {cfg : Cfg} {dev : Device σ} {view : κ → σ}
    (hdev : dev.Lawful) (hseek : cfg.fileLike = true → dev.Seekable) (hk : Kernel io dev view nfail)
    (hB : 0 < cfg.bufSize) {buf : List UInt8} (hb : buf.length = cfg.bufSize) (k : κ) {c : Client}
    (hc : Careful cfg dev ⟨view k, [], .idle⟩ c) (n : Nat) :
    ∃ h f' k' a', runClient io cfg c n [] (File.fresh buf) k = .ok (h, f', k') ∧
      Steps dev ⟨view k, [], .idle⟩ (h.map Prod.fst) (h.map Prod.snd) a' ∧
      (Settled h → view k' = a'.s) ∧
      ((∃ op, (op, Out.error) ∈ h ∧ ∀ c, op ≠ .unget c) → nfail k < nfail k') ∧
      (¬ (∃ op, (op, Out.error) ∈ h ∧ ∀ c, op ≠ .unget c) → nfail k' = nfail k) := by
  obtain ⟨h, f', k', a', e1, e2, _, e4⟩ := runClient_refines hdev hseek hk hB hc n [] _ k _
    Steps.nil (fresh_rep hb k) (by intro hs; rcases hs with hs | ⟨_, _, hs⟩ <;> simp at hs)
    (n0 := nfail k) (by simp) (fun _ => rfl)
  exact ⟨h, f', k', a', e1, e2, e4⟩

/-- A client that writes, flushes if that worked, and then reads. -/
def demoClient : Client := fun h =>
  if h = [] then some (.write [1, 2, 3, 4, 5, 6])
  else if h = [(.write [1, 2, 3, 4, 5, 6], .count 4)] then some .flush
  else if h = [(.write [1, 2, 3, 4, 5, 6], .count 4), (.flush, .done)] then some (.read 3)
  else none

/-- Steps from a stream determine the direction a client may continue in. -/
example : Careful cfg4 fileDev ⟨⟨[9, 9, 9, 9, 7, 8], 0⟩, [], .idle⟩ demoClient := by
  intro h b op hs hc
  unfold demoClient at hc
  split at hc
  · next h0 =>
    subst h0
    cases hc
    cases hs
    exact ⟨by simp, by simp⟩
  · split at hc
    · next _ h0 => cases hc; exact Or.inl rfl
    · split at hc
      · next _ _ h0 =>
        subst h0
        cases hc
        cases hs with
        | cons s1 hs =>
          cases hs with
          | cons s2 hs =>
            cases hs
            cases s2
            exact ⟨by decide, by simp, Or.inr (Or.inl rfl)⟩
      · cases hc

example : runClient (schedIo fileDev true) cfg4 demoClient 5 [] (File.fresh buf4)
      (file [9, 9, 9, 9, 7, 8] [some 0, some 1])
    = .ok ([(.write [1, 2, 3, 4, 5, 6], .count 4), (.flush, .done), (.read 3, .data [7, 8])],
        { File.fresh [7, 8, 3, 4] with validLimit := 2, ioOffset := 2, offset := 2,
                                       dirtyBegin := 4, dirtyEnd := 4 },
        ⟨⟨[1, 2, 3, 4, 7, 8], 6⟩, [], 0⟩) := by decide

/-! ## C24: output -/

/-- What a sequence of writes took of the data offered, given the results: what was reported, or, when
a write failed, some part of its data. -/
inductive Taken : List (List UInt8) → List Out → List UInt8 → Prop where
  | nil : Taken [] [] []
  | count {d : List UInt8} {ds : List (List UInt8)} {n : Nat} {os : List Out} {t : List UInt8} :
      0 < n → n ≤ d.length → Taken ds os t → Taken (d :: ds) (.count n :: os) (d.take n ++ t)
  | error {d : List UInt8} {ds : List (List UInt8)} {n : Nat} {os : List Out} {t : List UInt8} :
      n ≤ d.length → Taken ds os t → Taken (d :: ds) (.error :: os) (d.take n ++ t)

theorem writes_exact {io : Io κ} {cfg : Cfg} {dev : Device σ} {view : κ → σ} (hdev : dev.Lawful)
    (hk : Kernel io dev view nfail) (hB : 0 < cfg.bufSize) :
    ∀ (ds : List (List UInt8)) (f : File) (k : κ) (a : Stream σ), (∀ d ∈ ds, d ≠ []) →
      a.dir ≠ .reading → Rep cfg dev view f k a →
      ∃ os f' k' t dir, steps io cfg (ds.map Op.write) f k = .ok (os, f', k') ∧ Taken ds os t ∧
        dir ≠ .reading ∧ Rep cfg dev view f' k' ⟨dev.put a.s t, a.unget, dir⟩ ∧
        Honest nfail k k' (.error ∈ os) := by
  intro ds
  induction ds with
  | nil =>
    intro f k a _ hdir hrep
    refine ⟨[], f, k, [], a.dir, rfl, Taken.nil, hdir, ?_, honest_fine (by simp) rfl⟩
    rw [hdev.put_nil]; exact hrep
  | cons d ds ih =>
    intro f k a hne hdir hrep
    obtain ⟨o, f1, k1, a1, e1, e2, e3, e4⟩ := write_refines hdev hk hrep hB (d := d)
      ⟨hne d (by simp), hdir⟩
    rw [List.map_cons, steps, e1]
    simp only [Res.bind]
    cases e2 with
    | @write _ n dir h1 h2 h3 =>
      have hd1 : dir ≠ .reading := by
        rcases h3 with h | h
        · exact h
        · rw [h]; exact hdir
      obtain ⟨os, f2, k2, t, dir2, g1, g2, g3, g4, g5⟩ := ih f1 k1 _
        (fun d hd => hne d (by simp [hd])) hd1 e3
      rw [g1]
      refine ⟨_, f2, k2, _, dir2, rfl, Taken.count h1 h2 g2, g3, ?_, e4.seq g5 (by simp)⟩
      rw [← hdev.put_put]; exact g4
    | @writeError _ n dir h1 h3 =>
      have hd1 : dir ≠ .reading := by
        rcases h3 with h | h
        · exact h
        · rw [h]; exact hdir
      obtain ⟨os, f2, k2, t, dir2, g1, g2, g3, g4, g5⟩ := ih f1 k1 _
        (fun d hd => hne d (by simp [hd])) hd1 e3
      rw [g1]
      refine ⟨_, f2, k2, _, dir2, rfl, Taken.error h1 g2, g3, ?_, e4.seq g5 (by simp)⟩
      rw [← hdev.put_put]; exact g4

theorem steps_append (io : Io κ) (cfg : Cfg) :
    ∀ (xs ys : List Op) (f : File) (k : κ), steps io cfg (xs ++ ys) f k =
      (steps io cfg xs f k).bind fun (os, f1, k1) =>
      (steps io cfg ys f1 k1).bind fun (os2, f2, k2) => .ok (os ++ os2, f2, k2) := by
  intro xs
  induction xs with
  | nil =>
    intro ys f k
    simp only [List.nil_append, steps, Res.bind]
    cases steps io cfg ys f k <;> rfl
  | cons x xs ih =>
    intro ys f k
    simp only [List.cons_append, steps]
    cases step io cfg f k x with
    | ok r =>
      obtain ⟨o, f1, k1⟩ := r
      simp only [Res.bind, ih]
      cases steps io cfg xs f1 k1 with
      | ok r =>
        obtain ⟨os, f2, k2⟩ := r
        simp only [Res.bind]
        cases steps io cfg ys f2 k2 <;> rfl
      | ub => rfl
      | panic => rfl
    | ub => rfl
    | panic => rfl

/-- **C24.** Any sequence of writes on a newly opened stream, in any buffering mode, over any kernel
however little it accepts per call and whenever it fails, then a flush: nothing aborts, and if
the flush succeeds the kernel has received exactly the bytes that were taken, in order, each
once; and an error is reported exactly when a call to the kernel failed. -/
theorem output_exact {io : Io κ} {cfg : Cfg} {dev : Device σ} {view : κ → σ} (hdev : dev.Lawful)
    (hseek : cfg.fileLike = true → dev.Seekable) (hk : Kernel io dev view nfail) (hB : 0 < cfg.bufSize)
    {buf : List UInt8} (hb : buf.length = cfg.bufSize) (k : κ) (ds : List (List UInt8))
    (hne : ∀ d ∈ ds, d ≠ []) :
    ∃ os o f' k' t, steps io cfg (ds.map Op.write ++ [.flush]) (File.fresh buf) k
        = .ok (os ++ [o], f', k') ∧ Taken ds os t ∧ (o = .done ∨ o = .error) ∧
      (o = .done → view k' = dev.put (view k) t) ∧
      Honest nfail k k' (.error ∈ os ++ [o]) := by
  obtain ⟨os, f1, k1, t, dir, e1, e2, e3, e4, e5⟩ := writes_exact hdev hk hB ds _ k _ hne (by simp)
    (fresh_rep hb k)
  obtain ⟨o, f2, k2, a2, g1, g2, _, g4, g5⟩ := flush_refines hdev hseek hk e4 (Or.inr e3)
  refine ⟨os, o, f2, k2, t, ?_, e2, ?_, g4, e5.seq g5 (by simp [eq_comm])⟩
  · rw [steps_append, e1]
    simp only [Res.bind, steps, g1]
  · cases g2 <;> simp

/-- **C24**, regular files: the contents are those before, with the bytes taken written from the
initial position on. -/
theorem output_exact_file {io : Io κ} {cfg : Cfg} {view : κ → FileSt} (hk : Kernel io fileDev view nfail)
    (hB : 0 < cfg.bufSize) {buf : List UInt8} (hb : buf.length = cfg.bufSize) (k : κ)
    (ds : List (List UInt8)) (hne : ∀ d ∈ ds, d ≠ []) :
    ∃ os o f' k' t, steps io cfg (ds.map Op.write ++ [.flush]) (File.fresh buf) k
        = .ok (os ++ [o], f', k') ∧ Taken ds os t ∧ (o = .done ∨ o = .error) ∧
      (o = .done → (view k').content = overwrite (view k).content (view k).pos t ∧
        (view k').pos = (view k).pos + t.length) ∧
      Honest nfail k k' (.error ∈ os ++ [o]) := by
  obtain ⟨os, o, f', k', t, h1, h2, h3, h4, h5⟩ :=
    output_exact fileDev_lawful (fun _ => fileDev_seekable) hk hB hb k ds hne
  exact ⟨os, o, f', k', t, h1, h2, h3, fun h => by rw [h4 h]; exact ⟨rfl, rfl⟩, h5⟩

/-- **C24**, pipes: the bytes taken are appended to what was sent. -/
theorem output_exact_pipe {io : Io κ} {cfg : Cfg} {view : κ → PipeSt} (hk : Kernel io pipeDev view nfail)
    (hfl : cfg.fileLike = false)
    (hB : 0 < cfg.bufSize) {buf : List UInt8} (hb : buf.length = cfg.bufSize) (k : κ)
    (ds : List (List UInt8)) (hne : ∀ d ∈ ds, d ≠ []) :
    ∃ os o f' k' t, steps io cfg (ds.map Op.write ++ [.flush]) (File.fresh buf) k
        = .ok (os ++ [o], f', k') ∧ Taken ds os t ∧ (o = .done ∨ o = .error) ∧
      (o = .done → (view k').output = (view k).output ++ t) ∧
      Honest nfail k k' (.error ∈ os ++ [o]) := by
  obtain ⟨os, o, f', k', t, h1, h2, h3, h4, h5⟩ :=
    output_exact pipeDev_lawful (by simp [hfl]) hk hB hb k ds hne
  exact ⟨os, o, f', k', t, h1, h2, h3, fun h => by rw [h4 h]; rfl, h5⟩

/-- A line-buffered pipe, with short writes and one failure, which is retried. -/
example : steps (schedIo pipeDev false) ⟨4, false, .line⟩
      ([[104, 10, 105], [105, 106, 107], [108]].map Op.write ++ [.flush]) (File.fresh buf4)
      ⟨⟨[], []⟩, [some 0, some 0, none, some 1], 0⟩
    = .ok ([.count 2, .count 2, .error, .done],
        { File.fresh [104, 10, 105, 106] with ioMode := true, err := true, dirtyBegin := 4, dirtyEnd := 4 },
        ⟨⟨[], [104, 10, 105, 106]⟩, [], 1⟩) := by decide

/-! ## C25: input -/

/-- The bytes delivered by a sequence of reads. -/
def delivered : List Out → List UInt8
  | [] => []
  | .data d :: os => d ++ delivered os
  | _ :: os => delivered os

/-- The results of a sequence of reads from the given bytes: each read delivers the next bytes, at
most as many as asked for, fails without consuming any, or reports end-of-file, which it does only
when all bytes have been delivered. -/
inductive Reads : List UInt8 → List Nat → List Out → Prop where
  | nil {c : List UInt8} : Reads c [] []
  | data {c d : List UInt8} {n : Nat} {ns : List Nat} {os : List Out} :
      d ≠ [] → d.length ≤ n → Reads c ns os → Reads (d ++ c) (n :: ns) (.data d :: os)
  | eof {n : Nat} {ns : List Nat} {os : List Out} :
      Reads [] ns os → Reads [] (n :: ns) (.data [] :: os)
  | error {c : List UInt8} {n : Nat} {ns : List Nat} {os : List Out} :
      Reads c ns os → Reads c (n :: ns) (.error :: os)

theorem Reads.prefix {c : List UInt8} {ns : List Nat} {os : List Out} (h : Reads c ns os) :
    delivered os <+: c := by
  induction h with
  | nil => exact List.nil_prefix
  | data h1 h2 _ ih => exact (List.prefix_append_right_inj _).mpr ih
  | eof _ ih => simpa [delivered] using ih
  | error _ ih => simpa [delivered] using ih

theorem reads_exact {io : Io κ} {cfg : Cfg} {dev : Device σ} {view : κ → σ} (hdev : dev.Lawful)
    (hk : Kernel io dev view nfail) (hB : 0 < cfg.bufSize) :
    ∀ (ns : List Nat) (f : File) (k : κ) (a : Stream σ), (∀ n ∈ ns, 0 < n) →
      a.dir ≠ .writing → a.unget = [] → Rep cfg dev view f k a →
      ∃ os f' k', steps io cfg (ns.map Op.read) f k = .ok (os, f', k') ∧
        Reads (dev.avail a.s) ns os ∧ Honest nfail k k' (.error ∈ os) := by
  intro ns
  induction ns with
  | nil => intro f k a _ _ _ _; exact ⟨[], f, k, rfl, Reads.nil, honest_fine (by simp) rfl⟩
  | cons n ns ih =>
    intro f k a hn hdir hun hrep
    obtain ⟨o, f1, k1, a1, e1, e2, e3, e4⟩ := read_refines hdev hk hrep hB (n := n)
      ⟨hn n (by simp), hdir, Or.inr (Or.inl hun)⟩
    rw [List.map_cons, steps, e1]
    simp only [Res.bind]
    cases e2 with
    | @read _ d dir h1 h2 h3 h4 =>
      have hd1 : dir ≠ .writing := by
        rcases h4 with h | h
        · exact h
        · rw [h]; exact hdir
      obtain ⟨os, f2, k2, g1, g2, g3⟩ := ih f1 k1 _ (fun n hm => hn n (by simp [hm])) hd1
        (by simp [hun]) e3
      rw [g1]
      refine ⟨_, f2, k2, rfl, ?_, e4.seq g3 (by simp)⟩
      rw [hun] at h3 g2
      obtain ⟨t, ht⟩ := h3
      simp only [List.nil_append] at ht
      rw [hdev.avail_adv, ← ht] at g2
      simp only [List.length_nil, Nat.sub_zero, List.drop_left] at g2
      rw [← ht]
      exact Reads.data h1 h2 g2
    | eof h1 h2 =>
      obtain ⟨os, f2, k2, g1, g2, g3⟩ := ih f1 k1 _ (fun n hm => hn n (by simp [hm])) (by simp) rfl e3
      rw [g1]
      refine ⟨_, f2, k2, rfl, ?_, e4.seq g3 (by simp)⟩
      rw [h2] at g2 ⊢
      exact Reads.eof g2
    | @readError _ dir h4 =>
      have hd1 : dir ≠ .writing := by
        rcases h4 with h | h
        · exact h
        · rw [h]; exact hdir
      obtain ⟨os, f2, k2, g1, g2, g3⟩ := ih f1 k1 _ (fun n hm => hn n (by simp [hm])) hd1
        (by simp [hun]) e3
      rw [g1]
      exact ⟨_, f2, k2, rfl, Reads.error g2, e4.seq g3 (by simp)⟩

/-- **C25.** Any sequence of reads on a newly opened stream, in any buffering mode, over any kernel
however little it delivers per call and whenever it fails: nothing aborts, each read delivers the
next bytes of the device, none lost and none twice, nothing only at the end, and an error only when the kernel failed. -/
theorem input_exact {io : Io κ} {cfg : Cfg} {dev : Device σ} {view : κ → σ} (hdev : dev.Lawful)
    (hk : Kernel io dev view nfail) (hB : 0 < cfg.bufSize)
    {buf : List UInt8} (hb : buf.length = cfg.bufSize) (k : κ) (ns : List Nat)
    (hn : ∀ n ∈ ns, 0 < n) :
    ∃ os f' k', steps io cfg (ns.map Op.read) (File.fresh buf) k = .ok (os, f', k') ∧
      Reads (dev.avail (view k)) ns os ∧ Honest nfail k k' (.error ∈ os) :=
  reads_exact hdev hk hB ns _ k _ hn (by simp) rfl (fresh_rep hb k)

/-- **C25**, regular files. -/
theorem input_exact_file {io : Io κ} {cfg : Cfg} {view : κ → FileSt} (hk : Kernel io fileDev view nfail)
    (hB : 0 < cfg.bufSize) {buf : List UInt8} (hb : buf.length = cfg.bufSize) (k : κ) (ns : List Nat)
    (hn : ∀ n ∈ ns, 0 < n) :
    ∃ os f' k', steps io cfg (ns.map Op.read) (File.fresh buf) k = .ok (os, f', k') ∧
      Reads ((view k).content.drop (view k).pos) ns os ∧
      delivered os <+: (view k).content.drop (view k).pos ∧ Honest nfail k k' (.error ∈ os) := by
  obtain ⟨os, f', k', h1, h2, h3⟩ := input_exact fileDev_lawful hk hB hb k ns hn
  exact ⟨os, f', k', h1, h2, h2.prefix, h3⟩

example : steps (schedIo fileDev true) cfg4 ([3, 3, 3, 3].map Op.read) (File.fresh buf4)
      (file [1, 2, 3, 4, 5] [some 3, none, some 9])
    = .ok ([.data [1, 2, 3], .data [4], .error, .data [5]],
        { File.fresh [5, 2, 3, 4] with offset := 1, ioOffset := 1, validLimit := 1, err := true },
        ⟨⟨[1, 2, 3, 4, 5], 5⟩, [], 1⟩) := by decide

/-! ## C26: position -/

/-- **C26.** `ftell`, whatever was done before, names the position of the next byte to be read or
written (pushed-back bytes count back), and seeking to the position it returned afterwards leaves a
stream without pushed-back bytes exactly as it was. -/
theorem tell_then_seek {io : Io κ} {cfg : Cfg} {dev : Device σ} {view : κ → σ} (hdev : dev.Lawful)
    (hs : dev.Seekable) (hfl : cfg.fileLike = true) (hk : Kernel io dev view nfail) {f : File} {k : κ}
    {a : Stream σ} (hrep : Rep cfg dev view f k a) {p : Int} {f1 : File} {k1 : κ}
    (ht : step io cfg f k .tell = .ok (.offset p, f1, k1)) :
    p = dev.pos a.s - a.unget.length ∧
    ∃ o f2 k2 a2, step io cfg f1 k1 (.seek p .set) = .ok (o, f2, k2) ∧ Rep cfg dev view f2 k2 a2 ∧
      (o = .done → dev.pos a.s - a.unget.length = p ∧ a2 = ⟨dev.seekTo a.s p, [], .idle⟩ ∧
        (a.unget = [] → a2 = ⟨a.s, [], .idle⟩) ∧ view k2 = a2.s) ∧ (o ≠ .done → o = .error ∧ a2 = a) ∧
      Honest nfail k1 k2 (o = .error) := by
  obtain ⟨o, f', k', a', e1, e2, e3, _⟩ := tell_refines hdev hs hk hrep (cfg := cfg)
  rw [ht] at e1
  cases e1
  cases e2 with
  | tell =>
    refine ⟨rfl, ?_⟩
    obtain ⟨o, f2, k2, a2, g1, g2, g3, g4, g5⟩ := seek_refines hdev hs hk e3
      (off := dev.pos a.s - a.unget.length) (w := .set) ⟨hfl, by simp⟩
    refine ⟨o, f2, k2, a2, g1, g3, ?_, ?_, g5⟩
    · intro ho
      subst ho
      cases g2 with
      | seek h1 =>
        refine ⟨rfl, rfl, ?_, g4 rfl⟩
        intro hu
        simp only [Device.target, hu]
        simp [hs.seekTo_pos]
    · intro ho
      cases g2 with
      | seek h1 => exact absurd rfl ho
      | seekError => exact ⟨rfl, rfl⟩

/-- **C26.** `fseek(off, SEEK_CUR)` with nothing pushed back moves relative to what `ftell` returns, and
everything written before is in the file. What is missing: with bytes pushed back the code moves
relative to the position without them, see `seek_cur_violated`. -/
theorem seek_cur_partial {io : Io κ} {cfg : Cfg} {dev : Device σ} {view : κ → σ} (hdev : dev.Lawful)
    (hs : dev.Seekable) (hfl : cfg.fileLike = true) (hk : Kernel io dev view nfail) {f : File} {k : κ}
    {a : Stream σ} (hrep : Rep cfg dev view f k a) (hun : a.unget = []) (off : Int) :
    ∃ o f2 k2, step io cfg f k (.seek off .cur) = .ok (o, f2, k2) ∧
      (o = .done ∧ 0 ≤ dev.pos a.s + off ∧ view k2 = dev.seekTo a.s (dev.pos a.s + off) ∧
        Rep cfg dev view f2 k2 ⟨dev.seekTo a.s (dev.pos a.s + off), [], .idle⟩ ∨
       o = .error ∧ nfail k < nfail k2 ∧ Rep cfg dev view f2 k2 a) := by
  obtain ⟨o, f2, k2, a2, g1, g2, g3, g4, g5⟩ := seek_refines hdev hs hk hrep
    (off := off) (w := .cur) ⟨hfl, fun _ => hun⟩
  refine ⟨o, f2, k2, g1, ?_⟩
  cases g2 with
  | seek h1 => exact Or.inl ⟨rfl, h1, g4 rfl, g3⟩
  | seekError => exact Or.inr ⟨rfl, g5.1 rfl, g3⟩

/-- A read of two bytes, a push-back, `ftell` (1), `fseek(0, SEEK_CUR)`, `ftell` (2): the seek by zero
moved the stream. -/
theorem seek_cur_violated :
    (steps (schedIo fileDev true) cfg4
      [.read 2, .unget 66, .tell, .seek 0 .cur, .tell] (File.fresh buf4) (file [65, 66, 67] [])).bind
      (fun r => .ok r.1) = .ok [.data [65, 66], .done, .offset 1, .done, .offset 2] := by decide

example : (steps (schedIo fileDev true) cfg4
      [.write [1, 2, 3, 4], .write [5, 6], .tell, .seek (-3) .cur, .tell, .read 2]
      (File.fresh buf4) (file [] [some 1])).bind (fun r => .ok (r.1, r.2.2.st.content))
    = .ok ([.count 4, .count 2, .offset 6, .done, .offset 3, .data [4, 5]], [1, 2, 3, 4, 5, 6]) := by
  decide

/-! ## C27: push-back -/

/-- **C27.** A successful `ungetc` followed by a read of one byte gives that byte and leaves the stream
exactly as it was before the `ungetc`. -/
theorem unget_read {io : Io κ} {cfg : Cfg} {dev : Device σ} {view : κ → σ} (hdev : dev.Lawful)
    (hk : Kernel io dev view nfail) (hB : 0 < cfg.bufSize) {f : File} {k : κ} {a : Stream σ}
    (hrep : Rep cfg dev view f k a) (hdir : a.dir ≠ .writing) {c : UInt8} {f1 : File} {k1 : κ}
    (hu : step io cfg f k (.unget c) = .ok (.done, f1, k1)) :
    ∃ f2 k2, step io cfg f1 k1 (.read 1) = .ok (.data [c], f2, k2) ∧ Rep cfg dev view f2 k2 a := by
  obtain ⟨o, f', k', a', e1, e2, e3, _⟩ := unget_refines (io := io) hrep c
  rw [hu] at e1
  cases e1
  cases e2 with
  | unget =>
    rw [step, read]
    have : f1.unget = c :: a.unget := e3.unget
    simp only [this]
    refine ⟨_, k1, rfl, e3.buflen, by simp, ?_⟩
    rcases e3.phase with ⟨h1, h2⟩ | ⟨h1, h2⟩ | ⟨h1, h2⟩
    · exact Or.inl ⟨⟨h1.1, h1.2, h1.3, h1.4⟩, h2⟩
    · exact Or.inr (Or.inl ⟨h1, ⟨h2.1, h2.2, h2.3, h2.4, h2.5, h2.6, h2.7, h2.8, h2.9⟩⟩)
    · exact Or.inr (Or.inr ⟨h1, ⟨h2.1, h2.2, h2.3, h2.4, h2.5, h2.6, h2.7, h2.8⟩⟩)

/-- **C27.** Pushing back several bytes, as long as at most eight are pending, always succeeds, counts
back in `ftell`, and reads return them last-in first-out and then go on as before. -/
theorem ungets_read {io : Io κ} {cfg : Cfg} {dev : Device σ} {view : κ → σ} (hdev : dev.Lawful)
    (hk : Kernel io dev view nfail) (hB : 0 < cfg.bufSize) :
    ∀ (cs : List UInt8) {f : File} {k : κ} {a : Stream σ}, Rep cfg dev view f k a →
      a.unget.length + cs.length ≤ 8 →
      ∃ f1, steps io cfg (cs.map Op.unget) f k = .ok (cs.map (fun _ => .done), f1, k) ∧
        Rep cfg dev view f1 k ⟨a.s, cs.reverse ++ a.unget, a.dir⟩ := by
  intro cs
  induction cs with
  | nil => intro f k a hrep _; exact ⟨f, rfl, hrep⟩
  | cons c cs ih =>
    intro f k a hrep hl
    simp only [List.length_cons] at hl
    have hfu : f.unget.length = a.unget.length := by rw [hrep.unget]
    obtain ⟨o, f1, k1, a1, e1, e2, e3, _⟩ := unget_refines (io := io) hrep c
    have hst : step io cfg f k (.unget c)
        = .ok (.done, { f with unget := c :: f.unget }, k) := by
      rw [step, unget, if_neg (by simp [ungetBufferSize]; omega)]
    rw [hst] at e1
    cases e1
    cases e2 with
    | unget =>
      obtain ⟨f2, g1, g2⟩ := ih e3 (by simp; omega)
      refine ⟨f2, ?_, ?_⟩
      · rw [List.map_cons, steps, hst]
        simp only [Res.bind, g1, List.map_cons]
      · simpa using g2

/-- The read that follows returns the pushed-back bytes, last first, before anything else. -/
theorem unget_lifo {io : Io κ} {cfg : Cfg} {dev : Device σ} {view : κ → σ} (hdev : dev.Lawful)
    (hk : Kernel io dev view nfail) (hB : 0 < cfg.bufSize) (cs : List UInt8) (hcs : cs ≠ []) {f : File} {k : κ}
    {a : Stream σ} (hrep : Rep cfg dev view f k a) (hdir : a.dir ≠ .writing)
    (hl : a.unget.length + cs.length ≤ 8) :
    ∃ f1 f2 k2, steps io cfg (cs.map Op.unget) f k = .ok (cs.map (fun _ => .done), f1, k) ∧
      step io cfg f1 k (.read cs.length) = .ok (.data cs.reverse, f2, k2) ∧
      Rep cfg dev view f2 k2 a := by
  obtain ⟨f1, e1, e2⟩ := ungets_read hdev hk hB cs (io := io) hrep hl
  have hpos : 0 < cs.length := List.length_pos_iff.mpr hcs
  have hu := e2.unget
  simp only at hu
  refine ⟨f1, { f1 with unget := a.unget }, k, e1, ?_, e2.buflen, rfl, ?_⟩
  · rw [step, read]
    have h1 : f1.unget.take cs.length = cs.reverse := by
      rw [hu, List.take_append_of_le_length (by simp)]
      exact List.take_of_length_le (by simp)
    have h2 : f1.unget.drop cs.length = a.unget := by
      rw [hu]
      have := List.drop_left (l₁ := cs.reverse) (l₂ := a.unget)
      rwa [List.length_reverse] at this
    simp only [show cs.length ≠ 0 by omega, if_false, h1, h2, List.length_reverse, Nat.sub_self,
      if_true, Res.bind]
  · rcases e2.phase with ⟨h1, h2⟩ | ⟨h1, h2⟩ | ⟨h1, h2⟩
    · exact Or.inl ⟨⟨h1.1, h1.2, h1.3, h1.4⟩, h2⟩
    · exact Or.inr (Or.inl ⟨h1, ⟨h2.1, h2.2, h2.3, h2.4, h2.5, h2.6, h2.7, h2.8, h2.9⟩⟩)
    · exact Or.inr (Or.inr ⟨h1, ⟨h2.1, h2.2, h2.3, h2.4, h2.5, h2.6, h2.7, h2.8⟩⟩)

/-- **C27.** A successful seek discards pushed-back bytes. -/
theorem seek_discards_unget {io : Io κ} {cfg : Cfg} {dev : Device σ} {view : κ → σ}
    (hdev : dev.Lawful) (hs : dev.Seekable) (hfl : cfg.fileLike = true) (hk : Kernel io dev view nfail)
    {f : File} {k : κ} {a : Stream σ} (hrep : Rep cfg dev view f k a) (off : Int) {f1 : File} {k1 : κ}
    (h : step io cfg f k (.seek off .set) = .ok (.done, f1, k1)) :
    Rep cfg dev view f1 k1 ⟨dev.seekTo a.s off, [], .idle⟩ := by
  obtain ⟨o, f2, k2, a2, g1, g2, g3, _⟩ := seek_refines hdev hs hk hrep
    (off := off) (w := .set) ⟨hfl, by simp⟩
  rw [h] at g1
  cases g1
  cases g2 with
  | seek h1 => exact g3

example : (steps (schedIo fileDev true) cfg4
      [.read 3, .unget 99, .unget 98, .tell, .read 1, .read 5, .seek 1 .set, .read 2]
      (File.fresh buf4) (file [65, 66, 67, 68, 69] [])).bind (fun r => .ok r.1)
    = .ok [.data [65, 66, 67], .done, .done, .offset 1, .data [98], .data [99, 68], .done,
        .data [66, 67]] := by decide

/-- What is wrong with push-back at end-of-file: the file has one byte; it is read and pushed back; a
read of two bytes then reports zero bytes, and the pushed-back byte is gone. -/
theorem unget_eof_violated :
    (steps (schedIo fileDev true) cfg4 [.read 1, .unget 65, .read 2, .read 1] (File.fresh buf4)
      (file [65] [])).bind (fun r => .ok r.1)
    = .ok [.data [65], .done, .data [], .data []] := by decide

/-- `ungetc(c, f)`: the value returned, an `int`. `abstract_file::unget` takes and returns the byte as a
`char`, which is signed on x86-64 and promoted to `int` with its sign. file-io.cpp L259-274, L807-814 -/
def ungetc (f : File) (c : Int) : Int × File :=
  if c = -1 then (-1, f)
  else match unget f (UInt8.ofNat (c % 256).toNat) with
    | (none, f') => (-1, f')
    | (some b, f') => (if b.toNat < 128 then b.toNat else (b.toNat : Int) - 256, f')

/-- **C27.** `ungetc` of a 7-bit character returns it when there is room. What is missing: characters
from 128 on, see `ungetc_violated`. -/
theorem ungetc_partial (f : File) (c : Int) (h0 : 0 ≤ c) (h1 : c < 128) (hr : f.unget.length < 8) :
    ungetc f c = (c, { f with unget := UInt8.ofNat c.toNat :: f.unget }) := by
  have e : c % 256 = c := Int.emod_eq_of_lt h0 (by omega)
  have e2 : c.toNat < 128 := by omega
  have e3 : (UInt8.ofNat c.toNat).toNat = c.toNat := by
    simp; omega
  rw [ungetc, if_neg (by omega), e, unget, if_neg (by simp [ungetBufferSize]; omega)]
  simp only [e3, e2, if_true]
  simp [Int.max_eq_left h0]

example : (0 : Int) ≤ 65 ∧ (65 : Int) < 128 ∧ (File.fresh buf4).unget.length < 8 := by decide

/-- `ungetc(0xFF, f)` pushes the byte back but returns -1, which is `EOF`, i.e. failure; `ungetc(0xE9, f)`
returns -23. -/
theorem ungetc_violated :
    ungetc (File.fresh buf4) 255 = (-1, { File.fresh buf4 with unget := [255] }) ∧
    ungetc (File.fresh buf4) 233 = (-23, { File.fresh buf4 with unget := [233] }) := by decide

end Mlibc.Stdio
