import Verif.Stdio.Model
/-
The buffering layer refines the abstract stream: the relation `Rep` between the fields of the
stream together with the kernel's state, and what the program sees, is preserved by every request.
-/
set_option linter.unusedSimpArgs false
namespace Mlibc.Stdio

variable {κ σ : Type} {nfail : κ → Nat}

/-- What the kernel may do: deliver any non-empty part of what was asked for (nothing only at the
end), accept any non-empty part of what was offered, fail without effect, at any time. `nfail` counts
the calls that have failed so far; it is there to say that the library reports exactly the failures
of the kernel. -/
structure Kernel (io : Io κ) (dev : Device σ) (view : κ → σ) (nfail : κ → Nat) : Prop where
  read_err : ∀ {k n k'}, io.read k n = (none, k') → view k' = view k
  read_ok : ∀ {k n d k'}, io.read k n = (some d, k') →
    d.length ≤ n ∧ d <+: dev.avail (view k) ∧ (d = [] → n = 0 ∨ dev.avail (view k) = []) ∧
    view k' = dev.adv (view k) d.length
  write_err : ∀ {k d k'}, io.write k d = (none, k') → view k' = view k
  write_ok : ∀ {k d n k'}, io.write k d = (some n, k') →
    n ≤ d.length ∧ (d ≠ [] → 0 < n) ∧ view k' = dev.put (view k) (d.take n)
  seek_err : ∀ {k off w k'}, io.seek k off w = (none, k') → view k' = view k
  seek_ok : ∀ {k off w p k'}, io.seek k off w = (some p, k') →
    0 ≤ dev.target (view k) off w ∧ p = dev.target (view k) off w ∧
    view k' = dev.seekTo (view k) (dev.target (view k) off w)
  read_fail : ∀ {k n k'}, io.read k n = (none, k') → nfail k < nfail k'
  write_fail : ∀ {k d k'}, io.write k d = (none, k') → nfail k < nfail k'
  seek_fail : ∀ {k off w k'}, io.seek k off w = (none, k') → nfail k < nfail k'
  read_fine : ∀ {k n d k'}, io.read k n = (some d, k') → nfail k' = nfail k
  write_fine : ∀ {k d n k'}, io.write k d = (some n, k') → nfail k' = nfail k
  seek_fine : ∀ {k off w p k'}, io.seek k off w = (some p, k') → nfail k' = nfail k

/-- A call reports an error exactly when a call to the kernel failed. -/
def Honest (nfail : κ → Nat) (k k' : κ) (err : Prop) : Prop :=
  (err → nfail k < nfail k') ∧ (¬ err → nfail k' = nfail k)

theorem honest_fail {k k' : κ} {P : Prop} (h : P) (hf : nfail k < nfail k') : Honest nfail k k' P :=
  ⟨fun _ => hf, fun hn => absurd h hn⟩

theorem honest_fine {k k' : κ} {P : Prop} (h : ¬ P) (hf : nfail k' = nfail k) : Honest nfail k k' P :=
  ⟨fun hp => absurd hp h, fun _ => hf⟩

theorem Honest.trans_fine {k k1 k' : κ} {P : Prop} (h : Honest nfail k1 k' P)
    (hf : nfail k1 = nfail k) : Honest nfail k k' P :=
  ⟨fun hp => by have := h.1 hp; omega, fun hn => by rw [h.2 hn, hf]⟩

/-- Two calls in a row, the second reported separately. -/
theorem Honest.seq {k k1 k' : κ} {P Q R : Prop} (h1 : Honest nfail k k1 P) (h2 : Honest nfail k1 k' Q)
    (hr : R ↔ P ∨ Q) : Honest nfail k k' R := by
  have m1 : nfail k ≤ nfail k1 := by
    by_cases hp : P
    · exact Nat.le_of_lt (h1.1 hp)
    · rw [h1.2 hp]; exact Nat.le_refl _
  have m2 : nfail k1 ≤ nfail k' := by
    by_cases hq : Q
    · exact Nat.le_of_lt (h2.1 hq)
    · rw [h2.2 hq]; exact Nat.le_refl _
  constructor
  · intro h
    rcases hr.mp h with hp | hq
    · have := h1.1 hp; omega
    · have := h2.1 hq; omega
  · intro h
    have hp : ¬ P := fun hp => h (hr.mpr (Or.inl hp))
    have hq : ¬ Q := fun hq => h (hr.mpr (Or.inr hq))
    rw [h2.2 hq, h1.2 hp]

/-- Nothing is buffered. -/
structure Idle (f : File) : Prop where
  valid : f.validLimit = 0
  offset : f.offset = 0
  io : f.ioOffset = 0
  dirty : f.dirtyBegin = f.dirtyEnd

/-- The buffer holds data read ahead; the bytes from `offset` to `validLimit` are still unread. -/
structure Reading (cfg : Cfg) (dev : Device σ) (view : κ → σ) (f : File) (k : κ) (s : σ) : Prop where
  mode : cfg.mode ≠ .none
  ioMode : f.ioMode = false
  pos : 0 < f.validLimit
  valid : f.validLimit ≤ cfg.bufSize
  io : f.ioOffset = f.validLimit
  offset : f.offset ≤ f.validLimit
  dirty : f.dirtyBegin = f.dirtyEnd
  view : view k = dev.adv s (f.validLimit - f.offset)
  data : (f.buf.drop f.offset).take (f.validLimit - f.offset) <+: dev.avail s

/-- The buffer holds data to be written; the bytes from `ioOffset` to `offset` have not reached
the kernel. -/
structure Writing (cfg : Cfg) (dev : Device σ) (view : κ → σ) (f : File) (k : κ) (s : σ) : Prop where
  mode : cfg.mode ≠ .none
  ioMode : f.ioMode = true
  pos : 0 < f.validLimit
  valid : f.validLimit = f.offset
  offset : f.offset ≤ cfg.bufSize
  io : f.ioOffset ≤ f.offset
  dirty : f.dirtyBegin = f.dirtyEnd ∧ f.ioOffset = f.offset ∨
    f.dirtyBegin = f.ioOffset ∧ f.dirtyEnd = f.offset ∧ f.ioOffset < f.offset
  data : s = dev.put (view k) ((f.buf.drop f.ioOffset).take (f.offset - f.ioOffset))

/-- The stream with these fields, over this kernel state, is this abstract stream. -/
structure Rep (cfg : Cfg) (dev : Device σ) (view : κ → σ) (f : File) (k : κ) (a : Stream σ) : Prop where
  buflen : f.buf.length = cfg.bufSize
  unget : f.unget = a.unget
  phase : (Idle f ∧ view k = a.s) ∨ (a.dir = .reading ∧ Reading cfg dev view f k a.s) ∨
    (a.dir = .writing ∧ Writing cfg dev view f k a.s)

/-- Requests the C standard allows in this state, leaving out the two situations in which the code
is wrong: a buffered read that runs past the pushed-back bytes into end-of-file, and a
`SEEK_CUR` with bytes pushed back. -/
def Allowed (cfg : Cfg) (dev : Device σ) (a : Stream σ) : Op → Prop
  | .read n => 0 < n ∧ a.dir ≠ .writing ∧
      (cfg.mode = .none ∨ a.unget = [] ∨ n ≤ a.unget.length ∨ dev.avail a.s ≠ [])
  | .write d => d ≠ [] ∧ a.dir ≠ .reading
  | .unget _ => True
  | .flush => cfg.fileLike = true ∨ a.dir ≠ .reading
  | .seek _ w => cfg.fileLike = true ∧ (w = .cur → a.unget = [])
  | .tell => cfg.fileLike = true

theorem loadAt_ok {buf : List UInt8} {off n : Nat} (h : off + n ≤ buf.length) :
    loadAt buf off n = .ok ((buf.drop off).take n) := by
  rw [loadAt, if_pos h]

theorem storeAt_ok {buf d : List UInt8} {off : Nat} (h : off + d.length ≤ buf.length) :
    storeAt buf off d = .ok (buf.take off ++ d ++ buf.drop (off + d.length)) := by
  rw [storeAt, if_pos h]

theorem store_length {buf d : List UInt8} {off : Nat} (h : off + d.length ≤ buf.length) :
    (buf.take off ++ d ++ buf.drop (off + d.length)).length = buf.length := by
  simp; omega

/-- A window of the buffer that starts before the stored bytes and ends with them. -/
theorem store_window {buf d : List UInt8} {off io : Nat} (h : off + d.length ≤ buf.length)
    (hio : io ≤ off) :
    ((buf.take off ++ d ++ buf.drop (off + d.length)).drop io).take (off + d.length - io)
      = (buf.drop io).take (off - io) ++ d := by
  apply List.ext_getElem?
  intro i
  simp only [List.getElem?_take, List.getElem?_drop, List.getElem?_append, List.length_append,
    List.length_take, List.length_drop]
  have e1 : min off buf.length = off := by omega
  have e2 : min (off - io) (buf.length - io) = off - io := by omega
  rw [e1, e2]
  by_cases h1 : i < off - io
  · rw [if_pos (by omega), if_pos (by omega), if_pos (by omega), if_pos (by omega), if_pos h1,
      if_pos h1]
  · rw [if_neg h1]
    by_cases h2 : i < off + d.length - io
    · rw [if_pos h2, if_pos (by omega), if_neg (by omega)]; congr 1; omega
    · rw [if_neg h2, List.getElem?_eq_none (by omega)]

/-- The loop of `_write_back` hands the dirty bytes to the kernel in order; if it fails, the rest
is still dirty. -/
theorem writeLoop_spec {io : Io κ} {dev : Device σ} {view : κ → σ} (hdev : dev.Lawful)
    (hk : Kernel io dev view nfail) :
    ∀ (fuel : Nat) (f : File) (k : κ), f.ioOffset = f.dirtyBegin → f.ioOffset ≤ f.dirtyEnd →
      f.dirtyEnd ≤ f.buf.length → f.dirtyEnd - f.ioOffset < fuel →
      ∃ r x e k', writeLoop io fuel f k =
          .ok (r, { f with ioOffset := x, dirtyBegin := x, err := e }, k') ∧
        f.ioOffset ≤ x ∧ x ≤ f.dirtyEnd ∧ (r = some () → x = f.dirtyEnd) ∧
        dev.put (view k') ((f.buf.drop x).take (f.dirtyEnd - x))
          = dev.put (view k) ((f.buf.drop f.ioOffset).take (f.dirtyEnd - f.ioOffset)) ∧
        Honest nfail k k' (r = none) := by
  intro fuel
  induction fuel with
  | zero => intro f k _ _ _ h; omega
  | succ fuel ih =>
    intro f k hio hle hlen hf
    rw [writeLoop]
    by_cases hlt : f.ioOffset < f.dirtyEnd
    · rw [if_pos hlt, loadAt_ok (by omega)]
      simp only [Res.bind]
      generalize hw : io.write k ((f.buf.drop f.ioOffset).take (f.dirtyEnd - f.ioOffset)) = w
      obtain ⟨r, k'⟩ := w
      cases r with
      | none =>
        refine ⟨none, f.ioOffset, true, k', ?_, Nat.le_refl _, hle, by simp, ?_,
          honest_fail rfl (hk.write_fail hw)⟩
        · simp only [hio]
        · rw [hk.write_err hw]
      | some n =>
        obtain ⟨hn, hpos, hv⟩ := hk.write_ok hw
        have hl : ((f.buf.drop f.ioOffset).take (f.dirtyEnd - f.ioOffset)).length
            = f.dirtyEnd - f.ioOffset := by simp; omega
        have hne : (f.buf.drop f.ioOffset).take (f.dirtyEnd - f.ioOffset) ≠ [] := by
          intro h0; rw [h0] at hl; simp at hl; omega
        have hn0 := hpos hne
        rw [hl] at hn
        simp only [show n ≠ 0 by omega, if_false]
        obtain ⟨r, x, e, k2, he, hx1, hx2, hx3, hx4, hx5⟩ := ih
          { f with ioOffset := f.ioOffset + n, dirtyBegin := f.dirtyBegin + n } k'
          (by simp [hio]) (by simp; omega) (by simpa using hlen) (by simp; omega)
        refine ⟨r, x, e, k2, he, ?_, hx2, hx3, ?_, hx5.trans_fine (hk.write_fine hw)⟩
        · simp at hx1; omega
        · rw [hx4, hv, hdev.put_put]
          congr 1
          simp only
          rw [List.take_take, Nat.min_eq_left hn]
          have : f.dirtyEnd - f.ioOffset = n + (f.dirtyEnd - (f.ioOffset + n)) := by omega
          rw [this, List.take_add, List.drop_drop]
    · rw [if_neg hlt]
      have : f.ioOffset = f.dirtyEnd := by omega
      refine ⟨some (), f.ioOffset, f.err, k, ?_, Nat.le_refl _, hle, fun _ => this, rfl,
        honest_fine (by simp) rfl⟩
      cases f; simp only at hio; simp only [hio]

/-- `_write_back` on a clean stream does nothing. -/
theorem writeBack_clean {io : Io κ} {cfg : Cfg} {f : File} {k : κ} (h : f.dirtyBegin = f.dirtyEnd) :
    writeBack io cfg f k = .ok (some (), f, k) := by
  rw [writeBack, if_pos h]

/-- `_write_back` in the writing phase: on success nothing is pending any more. -/
theorem writeBack_writing {io : Io κ} {cfg : Cfg} {dev : Device σ} {view : κ → σ}
    (hdev : dev.Lawful) (hk : Kernel io dev view nfail) {f : File} {k : κ} {s : σ}
    (hlen : f.buf.length = cfg.bufSize) (hw : Writing cfg dev view f k s) :
    ∃ r x b e k', writeBack io cfg f k =
        .ok (r, { f with ioOffset := x, dirtyBegin := b, err := e }, k') ∧
      Writing cfg dev view { f with ioOffset := x, dirtyBegin := b, err := e } k' s ∧
      (r = some () → b = f.dirtyEnd ∧ x = f.offset ∧ view k' = s) ∧
      Honest nfail k k' (r = none) := by
  have := hw.pos
  have hv := hw.valid
  have ho := hw.offset
  rcases hw.dirty with ⟨hd, hi⟩ | ⟨hd, he, hlt⟩
  · refine ⟨some (), f.ioOffset, f.dirtyBegin, f.err, k, writeBack_clean hd, ?_, ?_,
      honest_fine (by simp) rfl⟩
    · exact hw
    · intro _; refine ⟨hd, hi, ?_⟩
      have := hw.data
      rw [hi] at this
      rw [this]; simp [hdev.put_nil]
  · obtain ⟨r, x, e, k', h1, h2, h3, h4, h5, h6⟩ := writeLoop_spec hdev hk
      (f.dirtyEnd - f.dirtyBegin + 1) f k hd.symm (by omega) (by omega) (by omega)
    refine ⟨r, x, x, e, k', ?_, ?_, ?_, h6⟩
    · rw [writeBack, if_neg (by omega)]
      by_cases hf : cfg.fileLike = true
      · simp only [hf, if_true, hd, ne_eq, not_true, if_false]
        rw [← h1, hd]
      · simp only [hf, if_false, hd, if_true]
        rw [← h1, hd]; simp
    · have hdata := hw.data
      refine ⟨hw.mode, hw.ioMode, hw.pos, hw.valid, hw.offset, ?_, ?_, ?_⟩
      · simp only; omega
      · simp only
        by_cases hxe : x = f.dirtyEnd
        · exact Or.inl ⟨hxe, by omega⟩
        · exact Or.inr (by simp; omega)
      · simp only
        rw [hdata, ← he, h5]
    · intro hr
      have hxe := h4 hr
      refine ⟨hxe, by omega, ?_⟩
      rw [hw.data, ← he, ← h5, hxe]
      simp [hdev.put_nil]

/-- Handing out buffered bytes. -/
theorem readTail_spec {cfg : Cfg} {dev : Device σ} {view : κ → σ} (hdev : dev.Lawful)
    {f : File} {k : κ} {s : σ} (hlen : f.buf.length = cfg.bufSize)
    (hr : Reading cfg dev view f k s) (u : List UInt8) {n : Nat} (hn : 0 < n)
    (hlt : f.offset < f.validLimit) :
    ∃ d f', readTail f k u n = .ok (some (u ++ d), f', k) ∧ d ≠ [] ∧ d.length ≤ n ∧
      d <+: dev.avail s ∧ f'.buf = f.buf ∧ f'.unget = f.unget ∧
      Reading cfg dev view f' k (dev.adv s d.length) := by
  have hval := hr.valid
  rw [readTail, if_pos hlt]
  simp only
  rw [loadAt_ok (by omega)]
  simp only [Res.bind]
  generalize hc : min (f.validLimit - f.offset) n = c
  have hdl : ((f.buf.drop f.offset).take c).length = c := by simp; omega
  have hpre : (f.buf.drop f.offset).take c <+: dev.avail s := by
    refine List.IsPrefix.trans ?_ hr.data
    exact List.take_prefix_take_left (by omega)
  refine ⟨(f.buf.drop f.offset).take c, { f with offset := f.offset + c }, rfl, ?_, ?_, hpre, rfl, rfl, ?_⟩
  · intro h0; rw [h0] at hdl; simp at hdl; omega
  · omega
  · rw [hdl]
    refine ⟨hr.mode, hr.ioMode, hr.pos, hr.valid, hr.io, ?_, hr.dirty, ?_, ?_⟩
    · simp only; omega
    · simp only
      rw [hr.view, hdev.adv_adv]; congr 1; omega
    · simp only
      rw [hdev.avail_adv]
      obtain ⟨t, ht⟩ := hr.data
      refine ⟨t, ?_⟩
      rw [← ht]
      have hl2 : ((f.buf.drop f.offset).take (f.validLimit - f.offset)).length
          = f.validLimit - f.offset := by simp; omega
      rw [List.drop_append_of_le_length (by omega)]
      congr 1
      rw [List.drop_take, List.drop_drop]
      congr 1; omega

/-- `abstract_file::read` refines the abstract stream. -/
theorem read_refines {io : Io κ} {cfg : Cfg} {dev : Device σ} {view : κ → σ} (hdev : dev.Lawful)
    (hk : Kernel io dev view nfail) {f : File} {k : κ} {a : Stream σ} (hrep : Rep cfg dev view f k a)
    (hB : 0 < cfg.bufSize) {n : Nat} (hal : Allowed cfg dev a (.read n)) :
    ∃ o f' k' a', step io cfg f k (.read n) = .ok (o, f', k') ∧ Step dev a (.read n) o a' ∧
      Rep cfg dev view f' k' a' ∧ Honest nfail k k' (o = .error) := by
  obtain ⟨hn, hdir, hbug⟩ := hal
  have hlen := hrep.buflen
  have hun := hrep.unget
  -- the phase is idle or reading
  have hph : (Idle f ∧ view k = a.s) ∨ (a.dir = .reading ∧ Reading cfg dev view f k a.s) := by
    rcases hrep.phase with h | h | ⟨h, _⟩
    · exact Or.inl h
    · exact Or.inr h
    · exact absurd h hdir
  rw [step, read]
  simp only [show n ≠ 0 by omega, if_false]
  by_cases hu : n ≤ a.unget.length
  · -- satisfied from the pushed-back bytes
    have hz : n - (f.unget.take n).length = 0 := by rw [hun]; simp; omega
    simp only [hz, if_true, Res.bind]
    have hl : (a.unget.take n).length = n := by simp; omega
    refine ⟨_, _, _, ⟨dev.adv a.s ((a.unget.take n).length - a.unget.length),
      a.unget.drop (a.unget.take n).length, a.dir⟩, rfl, ?_, ?_,
      honest_fine (by simp) rfl⟩
    · rw [hun]
      refine Step.read ?_ (by omega) ?_ (Or.inr rfl)
      · intro h0; rw [h0] at hl; simp at hl; omega
      · exact List.IsPrefix.trans (List.take_prefix _ _) (List.prefix_append _ _)
    · rw [hl, show n - a.unget.length = 0 by omega, hdev.adv_zero]
      refine ⟨hlen, by simp [hun], ?_⟩
      rcases hph with ⟨h1, h2⟩ | ⟨h1, h2⟩
      · left; exact ⟨⟨h1.1, h1.2, h1.3, h1.4⟩, h2⟩
      · right; left; exact ⟨h1, ⟨h2.1, h2.2, h2.3, h2.4, h2.5, h2.6, h2.7, h2.8, h2.9⟩⟩
  · -- all pushed-back bytes are consumed
    have hul : (f.unget.take n).length = a.unget.length := by rw [hun]; simp; omega
    have htk : f.unget.take n = a.unget := by rw [hun, List.take_of_length_le (by omega)]
    have hdr : f.unget.drop n = [] := by rw [hun, List.drop_eq_nil_of_le (by omega)]
    have hdra : a.unget.drop n = [] := by rw [← hun]; exact hdr
    have hz : n - (f.unget.take n).length ≠ 0 := by omega
    simp only [hz, if_false]
    rw [htk, hdr] at *
    -- a non-empty delivery
    have mkRead : ∀ (d : List UInt8) (dir : Dir), d ≠ [] → d.length ≤ n - a.unget.length →
        d <+: dev.avail a.s → dir ≠ .writing →
        Step dev a (.read n) (.data (a.unget ++ d)) ⟨dev.adv a.s d.length, [], dir⟩ := by
      intro d dir h1 h2 h3 h4
      have := Step.read (dev := dev) (a := a) (n := n) (d := a.unget ++ d) (dir := dir)
        (by simp [h1]) (by simp; omega) ((List.prefix_append_right_inj _).mpr h3) (Or.inl h4)
      rw [List.length_append, List.drop_eq_nil_of_le (by omega)] at this
      simpa using this
    by_cases hm : cfg.mode = .none
    · -- unbuffered
      have hidle : Idle f ∧ view k = a.s := by
        rcases hph with h | ⟨_, h⟩
        · exact h
        · exact absurd hm h.mode
      simp only [hm, if_true]
      generalize hr : io.read k (n - a.unget.length) = r
      obtain ⟨r, k'⟩ := r
      cases r with
      | none =>
        simp only [Res.bind]
        refine ⟨_, _, _, ⟨a.s, a.unget.drop n, a.dir⟩, rfl, Step.readError (Or.inr rfl), ?_,
          honest_fail rfl (hk.read_fail hr)⟩
        rw [hdra]
        refine ⟨hlen, rfl, Or.inl ⟨⟨hidle.1.1, hidle.1.2, hidle.1.3, hidle.1.4⟩, ?_⟩⟩
        rw [hk.read_err hr]; exact hidle.2
      | some d =>
        obtain ⟨h1, h2, h3, h4⟩ := hk.read_ok hr
        simp only [Res.bind]
        rw [hidle.2] at h2 h3 h4
        by_cases hd : d = []
        · -- end-of-file
          have hav := (h3 hd).resolve_left (by omega)
          have hue : a.unget = [] ∨ a.unget ≠ [] := Classical.em _
          rcases hue with hue | hue
          · subst hd
            refine ⟨_, _, _, ⟨a.s, [], .idle⟩, rfl, ?_, ?_,
              honest_fine (by simp) (hk.read_fine hr)⟩
            · rw [hue]; exact Step.eof hue hav
            · refine ⟨hlen, rfl, Or.inl ⟨⟨hidle.1.1, hidle.1.2, hidle.1.3, hidle.1.4⟩, ?_⟩⟩
              rw [h4]; simp [hdev.adv_zero]
          · subst hd
            have hul' : 0 < a.unget.length := List.length_pos_iff.mpr hue
            refine ⟨_, _, _, ⟨dev.adv a.s (a.unget.length - a.unget.length),
              a.unget.drop a.unget.length, .reading⟩, rfl, ?_, ?_,
              honest_fine (by simp) (hk.read_fine hr)⟩
            · rw [List.append_nil]
              exact Step.read hue (by omega) (List.prefix_append _ _) (Or.inl (by simp))
            · refine ⟨hlen, by simp, Or.inl ⟨⟨hidle.1.1, hidle.1.2, hidle.1.3, hidle.1.4⟩, ?_⟩⟩
              rw [h4]; simp [hdev.adv_zero]
        · refine ⟨_, _, _, ⟨dev.adv a.s d.length, [], .reading⟩, rfl,
            mkRead d .reading hd h1 h2 (by simp), ?_, honest_fine (by simp) (hk.read_fine hr)⟩
          exact ⟨hlen, rfl, Or.inl ⟨⟨hidle.1.1, hidle.1.2, hidle.1.3, hidle.1.4⟩, h4⟩⟩
    · simp only [hm, if_false]
      have hnp : ¬ (f.ioMode = true ∧ f.validLimit ≠ 0) := by
        rcases hph with ⟨h, _⟩ | ⟨_, h⟩
        · simp [h.valid]
        · simp [h.ioMode]
      have hnp' : (f.ioMode && decide (f.validLimit ≠ 0)) = false := by
        cases hio : f.ioMode
        · simp
        · have hv0 : f.validLimit = 0 := Classical.byContradiction fun h => hnp ⟨hio, h⟩
          simp [hv0]
      simp only [hnp', Bool.false_eq_true, if_false]
      have hdirty : f.dirtyBegin = f.dirtyEnd := by
        rcases hph with ⟨h, _⟩ | ⟨_, h⟩
        · exact h.dirty
        · exact h.dirty
      by_cases hov : f.offset = f.validLimit
      · simp only [hov, if_true]
        have hvk : view k = a.s := by
          rcases hph with ⟨_, h⟩ | ⟨_, h⟩
          · exact h
          · rw [h.view, hov]; simp [hdev.adv_zero]
        rw [writeBack_clean (by simpa using hdirty)]
        simp only [Res.bind, reset]
        have hov' : f.offset = f.validLimit := hov
        simp only [ne_eq, not_true, decide_false, Bool.and_false, Bool.false_eq_true, if_false, hdirty]
        generalize hr : io.read k cfg.bufSize = r
        obtain ⟨r, k'⟩ := r
        cases r with
        | none =>
          simp only
          refine ⟨_, _, _, ⟨a.s, a.unget.drop n, .idle⟩, rfl, Step.readError (Or.inl (by simp)), ?_,
            honest_fail rfl (hk.read_fail hr)⟩
          rw [hdra]
          refine ⟨hlen, rfl, Or.inl ⟨⟨rfl, rfl, rfl, rfl⟩, ?_⟩⟩
          rw [hk.read_err hr]; exact hvk
        | some d =>
          obtain ⟨h1, h2, h3, h4⟩ := hk.read_ok hr
          rw [hvk] at h2 h3 h4
          by_cases hd : d = []
          · simp only [hd, if_true]
            have hav := (h3 hd).resolve_left (by omega)
            have hue : a.unget = [] := by
              rcases hbug with h | h | h | h
              · exact absurd h hm
              · exact h
              · exact absurd h hu
              · exact absurd hav h
            refine ⟨_, _, _, ⟨a.s, [], .idle⟩, rfl, Step.eof hue hav, ?_,
              honest_fine (by simp) (hk.read_fine hr)⟩
            refine ⟨hlen, rfl, Or.inl ⟨⟨rfl, rfl, rfl, rfl⟩, ?_⟩⟩
            simp only
            rw [h4, hd]; simp [hdev.adv_zero]
          · simp only [hd, if_false]
            rw [storeAt_ok (by omega)]
            have hdl : 0 < d.length := List.length_pos_iff.mpr hd
            simp only
            generalize hbuf : f.buf.take 0 ++ d ++ f.buf.drop (0 + d.length) = buf
            have hbl : buf.length = cfg.bufSize := by
              rw [← hbuf, store_length (by omega), hlen]
            have hbd : buf.take d.length = d := by rw [← hbuf]; simp
            have hR : Reading cfg dev view
                { buf := buf, unget := [], offset := 0, ioOffset := d.length,
                  validLimit := d.length, dirtyBegin := f.dirtyEnd, dirtyEnd := f.dirtyEnd,
                  ioMode := false, eof := f.eof, err := f.err } k' a.s := by
              refine ⟨hm, rfl, hdl, h1, rfl, Nat.zero_le _, rfl, by simpa using h4, ?_⟩
              simpa [hbd] using h2
            obtain ⟨d2, f', e1, e2, e3, e4, e5, e6, e7⟩ := readTail_spec hdev
              (by simpa using hbl) hR a.unget (n := n - a.unget.length) (by omega) (by simpa using hdl)
            simp only [e1]
            refine ⟨_, _, _, ⟨dev.adv a.s d2.length, [], .reading⟩, rfl,
              mkRead d2 .reading e2 e3 e4 (by simp), ?_, honest_fine (by simp) (hk.read_fine hr)⟩
            exact ⟨by rw [e5]; exact hbl, by rw [e6], Or.inr (Or.inl ⟨rfl, e7⟩)⟩
      · simp only [hov, if_false]
        have hread : a.dir = .reading ∧ Reading cfg dev view f k a.s := by
          rcases hph with ⟨h, _⟩ | h
          · exact absurd (by rw [h.offset, h.valid]) hov
          · exact h
        have h2 := hread.2
        have hR : Reading cfg dev view { f with unget := [], ioMode := false } k a.s :=
          ⟨h2.1, rfl, h2.3, h2.4, h2.5, h2.6, h2.7, h2.8, h2.9⟩
        have := h2.offset
        obtain ⟨d2, f', e1, e2, e3, e4, e5, e6, e7⟩ := readTail_spec hdev
          (by simpa using hlen) hR a.unget (n := n - a.unget.length) (by omega)
          (by simp only; omega)
        rw [e1]
        simp only [Res.bind]
        refine ⟨_, _, _, ⟨dev.adv a.s d2.length, [], .reading⟩, rfl,
          mkRead d2 .reading e2 e3 e4 (by simp), ?_, honest_fine (by simp) rfl⟩
        exact ⟨by rw [e5]; exact hlen, by rw [e6], Or.inr (Or.inl ⟨rfl, e7⟩)⟩

/-- How much is buffered at once is positive and fits. -/
theorem writeChunk_bounds (cfg : Cfg) (f : File) (d : List UInt8) (hd : d ≠ [])
    (hroom : f.offset < cfg.bufSize) :
    0 < (writeChunk cfg f d).1 ∧ (writeChunk cfg f d).1 ≤ d.length ∧
      f.offset + (writeChunk cfg f d).1 ≤ cfg.bufSize := by
  have hdl : 0 < d.length := List.length_pos_iff.mpr hd
  rw [writeChunk]
  by_cases hm : cfg.mode = .line
  · simp only [hm, if_true]
    cases hfi : (d.take (min (cfg.bufSize - f.offset) d.length)).findIdx? (· == 10) with
    | none => simp only; omega
    | some i =>
      have := List.findIdx?_eq_some_iff_findIdx_eq.mp hfi
      simp only
      have h1 := this.1
      simp at h1
      omega
  · simp only [hm, if_false]; omega

/-- `writeTail` from the idle or writing phase with room in the buffer. -/
theorem writeTail_spec {io : Io κ} {cfg : Cfg} {dev : Device σ} {view : κ → σ} (hdev : dev.Lawful)
    (hk : Kernel io dev view nfail) {f : File} {k : κ} {s : σ} (hlen : f.buf.length = cfg.bufSize)
    (hm : cfg.mode ≠ .none)
    (hph : (Idle f ∧ view k = s) ∨ Writing cfg dev view f k s)
    (hroom : f.offset < cfg.bufSize) {d : List UInt8} (hd : d ≠ []) :
    ∃ r n f' k', writeTail io cfg f k d = .ok (r, f', k') ∧ 0 < n ∧ n ≤ d.length ∧
      (r = none ∨ r = some n) ∧ f'.buf.length = cfg.bufSize ∧ f'.unget = f.unget ∧
      Writing cfg dev view f' k' (dev.put s (d.take n)) ∧ Honest nfail k k' (r = none) := by
  obtain ⟨hc1, hc2, hc3⟩ := writeChunk_bounds cfg f d hd hroom
  rw [writeTail]
  have hio : (!f.ioMode && decide (f.validLimit ≠ 0)) = false := by
    rcases hph with ⟨h, _⟩ | h
    · simp [h.valid]
    · simp [h.ioMode]
  simp only [hio, Bool.false_eq_true, if_false, show ¬ cfg.bufSize ≤ f.offset by omega,
    show (writeChunk cfg f d).1 ≠ 0 by omega]
  generalize hc : writeChunk cfg f d = c at *
  obtain ⟨c, fl⟩ := c
  simp only at hc1 hc2 hc3 ⊢
  have htl : (d.take c).length = c := by simp; omega
  rw [storeAt_ok (by omega)]
  simp only [Res.bind]
  rw [htl]
  generalize hbuf : f.buf.take f.offset ++ d.take c ++ f.buf.drop (f.offset + c) = buf
  have hbl : buf.length = cfg.bufSize := by
    rw [← hbuf]
    have := store_length (buf := f.buf) (d := d.take c) (off := f.offset) (by omega)
    rw [htl] at this; omega
  have hwin : ∀ io0, io0 ≤ f.offset → (buf.drop io0).take (f.offset + c - io0)
      = (f.buf.drop io0).take (f.offset - io0) ++ d.take c := by
    intro io0 h0
    have := store_window (buf := f.buf) (d := d.take c) (off := f.offset) (by omega) h0
    rw [htl, hbuf] at this
    exact this
  -- the state after buffering
  generalize hf1 : (if f.dirtyBegin ≠ f.dirtyEnd then
      { f with ioMode := true, buf := buf, dirtyBegin := min f.dirtyBegin f.offset,
               dirtyEnd := max f.dirtyEnd (f.offset + c),
               validLimit := max (f.offset + c) f.validLimit, offset := f.offset + c }
    else
      { f with ioMode := true, buf := buf, dirtyBegin := f.offset, dirtyEnd := f.offset + c,
               validLimit := max (f.offset + c) f.validLimit, offset := f.offset + c } : File) = f1
  have hW : Writing cfg dev view f1 k (dev.put s (d.take c)) ∧ f1.buf = buf ∧ f1.unget = f.unget := by
    rcases hph with ⟨hid, hv⟩ | hw
    · have h0 := hid.offset
      rw [if_neg (by simp [hid.dirty])] at hf1
      subst hf1
      refine ⟨⟨hm, rfl, ?_, ?_, hc3, ?_, ?_, ?_⟩, rfl, rfl⟩
      · simp only; omega
      · simp only [hid.valid]; omega
      · simp only [hid.io]; omega
      · refine Or.inr ⟨?_, rfl, ?_⟩
        · simp only [hid.io, h0]
        · simp only [hid.io, h0]; omega
      · simp only [hid.io, hv]
        have := hwin 0 (by omega)
        simp only [h0, Nat.zero_add, Nat.sub_zero] at this
        simp only [h0, Nat.zero_add, Nat.sub_zero]
        rw [this]; simp
    · have hio' := hw.io
      have hval := hw.valid
      rcases hw.dirty with ⟨h1, h2⟩ | ⟨h1, h2, h3⟩
      · rw [if_neg (by simp [h1])] at hf1
        subst hf1
        refine ⟨⟨hm, rfl, ?_, ?_, hc3, ?_, ?_, ?_⟩, rfl, rfl⟩
        · simp only; omega
        · simp only; omega
        · simp only; omega
        · exact Or.inr ⟨h2.symm, rfl, by simp only; omega⟩
        · simp only
          rw [hwin _ hio', ← hdev.put_put, ← hw.data]
      · rw [if_pos (by omega)] at hf1
        subst hf1
        refine ⟨⟨hm, rfl, ?_, ?_, hc3, ?_, ?_, ?_⟩, rfl, rfl⟩
        · simp only; omega
        · simp only; omega
        · simp only; omega
        · right; simp only; omega
        · simp only
          rw [hwin _ hio', ← hdev.put_put, ← hw.data]
  cases fl with
  | false =>
    simp only [Bool.false_eq_true, if_false]
    exact ⟨_, c, f1, k, rfl, hc1, hc2, Or.inr rfl, by rw [hW.2.1]; exact hbl, hW.2.2, hW.1,
      honest_fine (by simp) rfl⟩
  | true =>
    simp only [if_true]
    obtain ⟨r, x, b, e, k', e1, e2, e3, e4⟩ := writeBack_writing hdev hk (by rw [hW.2.1]; exact hbl) hW.1
    rw [e1]
    cases r with
    | none =>
      exact ⟨_, c, _, _, rfl, hc1, hc2, Or.inl rfl, by rw [hW.2.1]; exact hbl, hW.2.2, e2,
        honest_fail rfl (e4.1 rfl)⟩
    | some _ =>
      exact ⟨_, c, _, _, rfl, hc1, hc2, Or.inr rfl, by rw [hW.2.1]; exact hbl, hW.2.2, e2,
        honest_fine (by simp) (e4.2 (by simp))⟩

/-- `abstract_file::write` refines the abstract stream. -/
theorem write_refines {io : Io κ} {cfg : Cfg} {dev : Device σ} {view : κ → σ} (hdev : dev.Lawful)
    (hk : Kernel io dev view nfail) {f : File} {k : κ} {a : Stream σ} (hrep : Rep cfg dev view f k a)
    (hB : 0 < cfg.bufSize) {d : List UInt8} (hal : Allowed cfg dev a (.write d)) :
    ∃ o f' k' a', step io cfg f k (.write d) = .ok (o, f', k') ∧ Step dev a (.write d) o a' ∧
      Rep cfg dev view f' k' a' ∧ Honest nfail k k' (o = .error) := by
  obtain ⟨hd, hdir⟩ := hal
  have hlen := hrep.buflen
  have hun := hrep.unget
  have hph : (Idle f ∧ view k = a.s) ∨ (a.dir = .writing ∧ Writing cfg dev view f k a.s) := by
    rcases hrep.phase with h | ⟨h, _⟩ | h
    · exact Or.inl h
    · exact absurd h hdir
    · exact Or.inr h
  have hdl : 0 < d.length := List.length_pos_iff.mpr hd
  rw [step, write]
  simp only [hd, if_false]
  by_cases hm : cfg.mode = .none
  · have hidle : Idle f ∧ view k = a.s := by
      rcases hph with h | ⟨_, h⟩
      · exact h
      · exact absurd hm h.mode
    simp only [hm, if_true, hidle.1.dirty, ne_eq, not_true, if_false]
    generalize hw : io.write k d = w
    obtain ⟨r, k'⟩ := w
    cases r with
    | none =>
      refine ⟨_, _, _, ⟨dev.put a.s (d.take 0), a.unget, .writing⟩, rfl,
        Step.writeError (Nat.zero_le _) (Or.inl (by simp)), ?_, honest_fail rfl (hk.write_fail hw)⟩
      refine ⟨hlen, hun, Or.inl ⟨⟨hidle.1.1, hidle.1.2, hidle.1.3, rfl⟩, ?_⟩⟩
      rw [hk.write_err hw]; simp [hdev.put_nil, hidle.2]
    | some n =>
      obtain ⟨h1, h2, h3⟩ := hk.write_ok hw
      refine ⟨_, _, _, ⟨dev.put a.s (d.take n), a.unget, .writing⟩, rfl,
        Step.write (h2 hd) h1 (Or.inl (by simp)), ?_, honest_fine (by simp) (hk.write_fine hw)⟩
      exact ⟨hlen, hun, Or.inl ⟨hidle.1, by rw [h3, hidle.2]⟩⟩
  · simp only [hm, if_false]
    -- finishing with `writeTail`
    have fin : ∀ (f1 : File) (k1 : κ), f1.buf.length = cfg.bufSize → f1.unget = a.unget →
        ((Idle f1 ∧ view k1 = a.s) ∨ Writing cfg dev view f1 k1 a.s) → f1.offset < cfg.bufSize →
        nfail k1 = nfail k → ∃ o f' k' a', ((writeTail io cfg f1 k1 d).bind fun
            | (none, f', k') => (.ok (.error, f', k') : Res (Out × File × κ))
            | (some n, f', k') => .ok (.count n, f', k')) = .ok (o, f', k') ∧
          Step dev a (.write d) o a' ∧ Rep cfg dev view f' k' a' ∧
          Honest nfail k k' (o = .error) := by
      intro f1 k1 hl hu hp hroom hnf
      obtain ⟨r, n, f', k', e1, e2, e3, e4, e5, e6, e7, e8⟩ := writeTail_spec hdev hk hl hm hp hroom hd
      rw [e1]
      have hr : Rep cfg dev view f' k' ⟨dev.put a.s (d.take n), a.unget, .writing⟩ :=
        ⟨e5, by rw [e6, hu], Or.inr (Or.inr ⟨rfl, e7⟩)⟩
      rcases e4 with rfl | rfl
      · exact ⟨_, f', k', _, rfl, Step.writeError e3 (Or.inl (by simp)), hr,
          honest_fail rfl ((e8.trans_fine hnf).1 rfl)⟩
      · exact ⟨_, f', k', _, rfl, Step.write e2 e3 (Or.inl (by simp)), hr,
          honest_fine (by simp) ((e8.trans_fine hnf).2 (by simp))⟩
    by_cases hfull : f.offset = cfg.bufSize
    · simp only [hfull, if_true]
      have hw : a.dir = .writing ∧ Writing cfg dev view f k a.s := by
        rcases hph with ⟨h, _⟩ | h
        · have := h.offset; omega
        · exact h
      obtain ⟨r, x, b, e, k', e1, e2, e3, e4⟩ := writeBack_writing hdev hk hlen hw.2
      rw [e1]
      cases r with
      | none =>
        simp only [Res.bind]
        refine ⟨_, _, _, ⟨dev.put a.s (d.take 0), a.unget, .writing⟩, rfl,
          Step.writeError (Nat.zero_le _) (Or.inl (by simp)), ?_, honest_fail rfl (e4.1 rfl)⟩
        refine ⟨hlen, hun, Or.inr (Or.inr ⟨rfl, ?_⟩)⟩
        simpa [hdev.put_nil] using e2
      | some _ =>
        obtain ⟨h1, h2, h3⟩ := e3 rfl
        have hov : f.validLimit = f.offset := hw.2.valid
        simp only [Res.bind, reset, hov, ne_eq, not_true, decide_false, Bool.and_false,
          Bool.false_eq_true, if_false, h1]
        exact fin _ k' hlen hun (Or.inl ⟨⟨rfl, rfl, rfl, rfl⟩, h3⟩) hB (e4.2 (by simp))
    · simp only [hfull, if_false]
      refine fin f k hlen hun ?_ ?_ rfl
      · rcases hph with h | h
        · exact Or.inl h
        · exact Or.inr h.2
      · rcases hph with ⟨h, _⟩ | ⟨_, h⟩
        · rw [h.offset]; exact hB
        · have := h.offset; omega

/-- `abstract_file::unget` refines the abstract stream. -/
theorem unget_refines {io : Io κ} {cfg : Cfg} {dev : Device σ} {view : κ → σ}
    {f : File} {k : κ} {a : Stream σ} (hrep : Rep cfg dev view f k a) (c : UInt8) :
    ∃ o f' k' a', step io cfg f k (.unget c) = .ok (o, f', k') ∧ Step dev a (.unget c) o a' ∧
      Rep cfg dev view f' k' a' ∧ k' = k := by
  have hun := hrep.unget
  rw [step, unget]
  by_cases h : f.unget.length + 1 > ungetBufferSize
  · simp only [h, if_true]
    refine ⟨_, f, k, a, rfl, Step.ungetFull ?_, hrep, rfl⟩
    rw [← hun]; simp [ungetBufferSize] at h; omega
  · simp only [h, if_false]
    refine ⟨_, _, k, _, rfl, Step.unget, ?_, rfl⟩
    refine ⟨hrep.buflen, by simp [hun], ?_⟩
    rcases hrep.phase with ⟨h1, h2⟩ | ⟨h1, h2⟩ | ⟨h1, h2⟩
    · exact Or.inl ⟨⟨h1.1, h1.2, h1.3, h1.4⟩, h2⟩
    · exact Or.inr (Or.inl ⟨h1, ⟨h2.1, h2.2, h2.3, h2.4, h2.5, h2.6, h2.7, h2.8, h2.9⟩⟩)
    · exact Or.inr (Or.inr ⟨h1, ⟨h2.1, h2.2, h2.3, h2.4, h2.5, h2.6, h2.7, h2.8⟩⟩)

/-- `_write_back` from any phase: what the program sees is unchanged; afterwards either it failed and
the phase is as before, or nothing is dirty. -/
theorem writeBack_spec {io : Io κ} {cfg : Cfg} {dev : Device σ} {view : κ → σ} (hdev : dev.Lawful)
    (hk : Kernel io dev view nfail) {f : File} {k : κ} {a : Stream σ} (hrep : Rep cfg dev view f k a) :
    ∃ r f' k', writeBack io cfg f k = .ok (r, f', k') ∧ Rep cfg dev view f' k' a ∧
      Honest nfail k k' (r = none) ∧
      (r = some () → f'.dirtyBegin = f'.dirtyEnd ∧
        (f'.offset = f'.ioOffset ∧ view k' = a.s ∨
         a.dir = .reading ∧ Reading cfg dev view f' k' a.s)) := by
  rcases hrep.phase with ⟨h1, h2⟩ | ⟨h1, h2⟩ | ⟨h1, h2⟩
  · refine ⟨_, f, k, writeBack_clean h1.dirty, hrep, honest_fine (by simp) rfl,
      fun _ => ⟨h1.dirty, Or.inl ⟨?_, h2⟩⟩⟩
    rw [h1.offset, h1.io]
  · exact ⟨_, f, k, writeBack_clean h2.dirty, hrep, honest_fine (by simp) rfl,
      fun _ => ⟨h2.dirty, Or.inr ⟨h1, h2⟩⟩⟩
  · obtain ⟨r, x, b, e, k', e1, e2, e3, e4⟩ := writeBack_writing hdev hk hrep.buflen h2
    refine ⟨r, _, k', e1, ⟨hrep.buflen, hrep.unget, Or.inr (Or.inr ⟨h1, e2⟩)⟩, e4, ?_⟩
    intro hr
    obtain ⟨h3, h4, h5⟩ := e3 hr
    exact ⟨h3, Or.inl ⟨h4.symm, h5⟩⟩

theorem Rep.setErr {cfg : Cfg} {dev : Device σ} {view : κ → σ} {f : File} {k k' : κ} {a : Stream σ}
    (h : Rep cfg dev view f k a) (hv : view k' = view k) (e : Bool) :
    Rep cfg dev view { f with err := e } k' a := by
  refine ⟨h.buflen, h.unget, ?_⟩
  rcases h.phase with ⟨h1, h2⟩ | ⟨h1, h2⟩ | ⟨h1, h2⟩
  · exact Or.inl ⟨⟨h1.1, h1.2, h1.3, h1.4⟩, by rw [hv]; exact h2⟩
  · exact Or.inr (Or.inl ⟨h1, ⟨h2.1, h2.2, h2.3, h2.4, h2.5, h2.6, h2.7, by rw [hv]; exact h2.8, h2.9⟩⟩)
  · exact Or.inr (Or.inr ⟨h1, ⟨h2.1, h2.2, h2.3, h2.4, h2.5, h2.6, h2.7, by rw [hv]; exact h2.8⟩⟩)

theorem Rep.kernel {cfg : Cfg} {dev : Device σ} {view : κ → σ} {f : File} {k k' : κ} {a : Stream σ}
    (h : Rep cfg dev view f k a) (hv : view k' = view k) : Rep cfg dev view f k' a :=
  h.setErr hv f.err

theorem purge_idle (f : File) : Idle (purge f) := ⟨rfl, rfl, rfl, rfl⟩

/-- `abstract_file::flush` refines the abstract stream, and afterwards the kernel has everything. -/
theorem flush_refines {io : Io κ} {cfg : Cfg} {dev : Device σ} {view : κ → σ} (hdev : dev.Lawful)
    (hseek : cfg.fileLike = true → dev.Seekable)
    (hk : Kernel io dev view nfail) {f : File} {k : κ} {a : Stream σ} (hrep : Rep cfg dev view f k a)
    (hal : Allowed cfg dev a .flush) :
    ∃ o f' k' a', step io cfg f k .flush = .ok (o, f', k') ∧ Step dev a .flush o a' ∧
      Rep cfg dev view f' k' a' ∧ (o = .done → view k' = a.s) ∧ Honest nfail k k' (o = .error) := by
  obtain ⟨r, f1, k1, e1, hrep1, hh, hdone⟩ := writeBack_spec hdev hk hrep
  rw [step, flush, e1]
  cases r with
  | none => exact ⟨_, f1, k1, a, rfl, Step.flushError, hrep1, by simp, honest_fail rfl (hh.1 rfl)⟩
  | some _ =>
    obtain ⟨hcl, hcase⟩ := hdone rfl
    simp only [Res.bind, savePos]
    have fin : ∀ k2, view k2 = a.s → Rep cfg dev view (purge f1) k2 ⟨a.s, [], .idle⟩ := by
      intro k2 h2
      exact ⟨hrep1.buflen, rfl, Or.inl ⟨purge_idle _, h2⟩⟩
    by_cases hfl : (cfg.fileLike && decide (cfg.mode ≠ .none)) = true
    · simp only [hfl, if_true]
      have hfl' : cfg.fileLike = true := by
        simp only [Bool.and_eq_true] at hfl; exact hfl.1
      have hs := hseek hfl'
      generalize hsk : io.seek k1 ((f1.offset : Int) - f1.ioOffset) .cur = w
      obtain ⟨r, k2⟩ := w
      cases r with
      | none =>
        exact ⟨_, _, k2, a, rfl, Step.flushError, hrep1.setErr (hk.seek_err hsk) true, by simp,
          honest_fail rfl (by have := hh.2 (by simp); have := hk.seek_fail hsk; omega)⟩
      | some p =>
        obtain ⟨h1, h2, h3⟩ := hk.seek_ok hsk
        have hview : view k2 = a.s := by
          rw [h3]
          simp only [Device.target] at *
          rcases hcase with ⟨h4, h5⟩ | ⟨_, h4⟩
          · rw [h4, h5]; simp [hs.seekTo_pos]
          · have := h4.view
            rw [this] at h1 ⊢
            rw [hs.pos_adv] at h1 ⊢
            have hio := h4.io
            have hof := h4.offset
            have e : dev.pos a.s + ((f1.validLimit - f1.offset : Nat) : Int)
                + ((f1.offset : Int) - f1.ioOffset) = dev.pos a.s := by omega
            rw [e] at h1 ⊢
            rw [hs.seekTo_adv _ _ _ h1, hs.seekTo_pos]
        exact ⟨_, _, k2, _, rfl, Step.flush, fin k2 hview, fun _ => hview,
          honest_fine (by simp) (by rw [hk.seek_fine hsk]; exact hh.2 (by simp))⟩
    · simp only [hfl, if_false]
      have hview : view k1 = a.s := by
        rcases hcase with ⟨_, h5⟩ | ⟨h4, h5⟩
        · exact h5
        · exfalso
          rcases hal with h | h
          · have hm := h5.mode
            simp [h, hm] at hfl
          · exact h h4
      exact ⟨_, _, k1, _, rfl, Step.flush, fin k1 hview, fun _ => hview,
        honest_fine (by simp) (hh.2 (by simp))⟩

/-- `abstract_file::tell` refines the abstract stream. -/
theorem tell_refines {io : Io κ} {cfg : Cfg} {dev : Device σ} {view : κ → σ} (hdev : dev.Lawful)
    (hs : dev.Seekable) (hk : Kernel io dev view nfail) {f : File} {k : κ} {a : Stream σ}
    (hrep : Rep cfg dev view f k a) :
    ∃ o f' k' a', step io cfg f k .tell = .ok (o, f', k') ∧ Step dev a .tell o a' ∧
      Rep cfg dev view f' k' a' ∧ Honest nfail k k' (o = .error) := by
  rw [step, tell]
  generalize hsk : io.seek k 0 .cur = w
  obtain ⟨r, k2⟩ := w
  cases r with
  | none => exact ⟨_, f, k2, a, rfl, Step.tellError, hrep.kernel (hk.seek_err hsk),
      honest_fail rfl (hk.seek_fail hsk)⟩
  | some p =>
    obtain ⟨h1, h2, h3⟩ := hk.seek_ok hsk
    simp only [Device.target, Int.add_zero] at h2 h3
    rw [hs.seekTo_pos] at h3
    refine ⟨_, f, k2, a, rfl, ?_, hrep.kernel h3, honest_fine (by simp) (hk.seek_fine hsk)⟩
    have hp : p + ((f.offset : Int) - f.ioOffset) - f.unget.length
        = dev.pos a.s - a.unget.length := by
      rw [hrep.unget, h2]
      congr 1
      rcases hrep.phase with ⟨h4, h5⟩ | ⟨h4, h5⟩ | ⟨h4, h5⟩
      · rw [h4.offset, h4.io, h5]; simp
      · rw [h5.view, hs.pos_adv]
        have := h5.io; have := h5.offset
        omega
      · have hl := hrep.buflen
        have := h5.io; have := h5.offset
        have hlen : ((f.buf.drop f.ioOffset).take (f.offset - f.ioOffset)).length
            = f.offset - f.ioOffset := by simp; omega
        rw [h5.data, hs.pos_put, hlen]
        omega
    rw [hp]
    exact Step.tell

/-- `abstract_file::seek` refines the abstract stream, and afterwards everything written before is
in the file. -/
theorem seek_refines {io : Io κ} {cfg : Cfg} {dev : Device σ} {view : κ → σ} (hdev : dev.Lawful)
    (hs : dev.Seekable) (hk : Kernel io dev view nfail) {f : File} {k : κ} {a : Stream σ}
    (hrep : Rep cfg dev view f k a) {off : Int} {w : Whence} (hal : Allowed cfg dev a (.seek off w)) :
    ∃ o f' k' a', step io cfg f k (.seek off w) = .ok (o, f', k') ∧ Step dev a (.seek off w) o a' ∧
      Rep cfg dev view f' k' a' ∧ (o = .done → view k' = a'.s) ∧
      Honest nfail k k' (o = .error) := by
  obtain ⟨r, f1, k1, e1, hrep1, hh, hdone⟩ := writeBack_spec hdev hk hrep
  rw [step, seek, e1]
  cases r with
  | none => exact ⟨_, f1, k1, a, rfl, Step.seekError, hrep1, by simp, honest_fail rfl (hh.1 rfl)⟩
  | some _ =>
    obtain ⟨hcl, hcase⟩ := hdone rfl
    simp only [Res.bind]
    generalize hsk : io.seek k1 (if w = .cur then off + ((f1.offset : Int) - f1.ioOffset) else off) w = x
    obtain ⟨r, k2⟩ := x
    cases r with
    | none => exact ⟨_, _, k2, a, rfl, Step.seekError, hrep1.setErr (hk.seek_err hsk) true, by simp,
      honest_fail rfl (by have := hh.2 (by simp); have := hk.seek_fail hsk; omega)⟩
    | some p =>
      obtain ⟨h1, h2, h3⟩ := hk.seek_ok hsk
      have ht : dev.target (view k1)
          (if w = .cur then off + ((f1.offset : Int) - f1.ioOffset) else off) w
          = dev.target a.s off w := by
        rcases hcase with ⟨h4, h5⟩ | ⟨_, h4⟩
        · rw [h4, h5]; simp
        · have hio := h4.io
          have hof := h4.offset
          rw [h4.view]
          cases w with
          | set => simp [Device.target]
          | cur =>
            simp only [if_true, Device.target, hs.pos_adv]
            omega
          | end_ => simp [Device.target, hs.size_adv]
      rw [ht] at h1 h3
      have hview : view k2 = dev.seekTo a.s (dev.target a.s off w) := by
        rw [h3]
        rcases hcase with ⟨_, h5⟩ | ⟨_, h4⟩
        · rw [h5]
        · rw [h4.view, hs.seekTo_adv _ _ _ h1]
      refine ⟨_, _, k2, _, rfl, Step.seek h1, ?_, fun _ => hview,
        honest_fine (by simp) (by rw [hk.seek_fine hsk]; exact hh.2 (by simp))⟩
      exact ⟨hrep1.buflen, rfl, Or.inl ⟨⟨rfl, rfl, rfl, rfl⟩, hview⟩⟩

/-- Every request refines the abstract stream. -/
theorem step_refines {io : Io κ} {cfg : Cfg} {dev : Device σ} {view : κ → σ} (hdev : dev.Lawful)
    (hseek : cfg.fileLike = true → dev.Seekable)
    (hk : Kernel io dev view nfail) (hB : 0 < cfg.bufSize) {f : File} {k : κ} {a : Stream σ}
    (hrep : Rep cfg dev view f k a) {op : Op} (hal : Allowed cfg dev a op) :
    ∃ o f' k' a', step io cfg f k op = .ok (o, f', k') ∧ Step dev a op o a' ∧
      Rep cfg dev view f' k' a' ∧
      Honest nfail k k' (o = .error ∧ ∀ c, op ≠ .unget c) := by
  have conv : ∀ {k' : κ} {o : Out}, (∀ c, op ≠ .unget c) → Honest nfail k k' (o = .error) →
      Honest nfail k k' (o = .error ∧ ∀ c, op ≠ .unget c) := by
    intro k' o h1 h2
    exact ⟨fun h => h2.1 h.1, fun h => h2.2 (fun h3 => h ⟨h3, h1⟩)⟩
  cases op with
  | read n =>
    obtain ⟨o, f', k', a', h1, h2, h3, h4⟩ := read_refines hdev hk hrep hB hal
    exact ⟨o, f', k', a', h1, h2, h3, conv (by simp) h4⟩
  | write d =>
    obtain ⟨o, f', k', a', h1, h2, h3, h4⟩ := write_refines hdev hk hrep hB hal
    exact ⟨o, f', k', a', h1, h2, h3, conv (by simp) h4⟩
  | unget c =>
    obtain ⟨o, f', k', a', h1, h2, h3, h4⟩ := unget_refines (io := io) hrep c
    exact ⟨o, f', k', a', h1, h2, h3, honest_fine (by simp) (by rw [h4])⟩
  | flush =>
    obtain ⟨o, f', k', a', h1, h2, h3, _, h4⟩ := flush_refines hdev hseek hk hrep hal
    exact ⟨o, f', k', a', h1, h2, h3, conv (by simp) h4⟩
  | seek off w =>
    obtain ⟨o, f', k', a', h1, h2, h3, _, h4⟩ := seek_refines hdev (hseek hal.1) hk hrep hal
    exact ⟨o, f', k', a', h1, h2, h3, conv (by simp) h4⟩
  | tell =>
    obtain ⟨o, f', k', a', h1, h2, h3, h4⟩ := tell_refines hdev (hseek hal) hk hrep (cfg := cfg)
    exact ⟨o, f', k', a', h1, h2, h3, conv (by simp) h4⟩

/-- A fresh stream. -/
theorem fresh_rep {cfg : Cfg} {dev : Device σ} {view : κ → σ} {buf : List UInt8}
    (hb : buf.length = cfg.bufSize) (k : κ) :
    Rep cfg dev view (File.fresh buf) k ⟨view k, [], .idle⟩ :=
  ⟨hb, rfl, Or.inl ⟨⟨rfl, rfl, rfl, rfl⟩, rfl⟩⟩

end Mlibc.Stdio
