import Verif.Unistd.DevNum

/-!
# `statx` and `recvfrom` on top of other calls

`statx` where the kernel has only `stat`, options/linux/generic/sys-statx.cpp L9-61; `recvfrom` where it has only `recvmsg`,
options/posix/generic/sys-socket.cpp L89-128.
-/

namespace Mlibc.Statx

open DevNum

/-- What the file system knows of a file.  `btime` is the time at which it was made, which `stat` does not tell. -/
structure Info where
  blksize : Nat
  blocks : Nat
  gid : Nat
  ino : Nat
  mode : Nat
  nlink : Nat
  size : Nat
  uid : Nat
  atime : Int × Nat
  mtime : Int × Nat
  ctime : Int × Nat
  btime : Int × Nat
  rdev : BitVec 64
  dev : BitVec 64
deriving DecidableEq

/-- `struct statx`, abis/linux/statx.h L50-80, the members that are set; the others are 0. -/
structure Buf where
  blksize : Nat
  blocks : Nat
  gid : Nat
  ino : Nat
  mode : Nat
  nlink : Nat
  size : Nat
  uid : Nat
  atime : Int × Nat
  btime : Int × Nat
  ctime : Int × Nat
  mtime : Int × Nat
  rdevMajor : BitVec 32
  rdevMinor : BitVec 32
  devMajor : BitVec 32
  devMinor : BitVec 32
  mask : Nat
deriving DecidableEq

/-! ## Specification -/

/-- The basic members are those of the file; the device is given by its parts. -/
def Basic (i : Info) (b : Buf) : Prop :=
  b.blksize = i.blksize ∧ b.blocks = i.blocks ∧ b.gid = i.gid ∧ b.ino = i.ino ∧ b.mode = i.mode ∧ b.nlink = i.nlink ∧ b.size = i.size ∧
  b.uid = i.uid ∧ b.atime = i.atime ∧ b.ctime = i.ctime ∧ b.mtime = i.mtime ∧
  makedev b.rdevMajor b.rdevMinor = i.rdev ∧ makedev b.devMajor b.devMinor = i.dev

/-! ## The code -/

/-- sys-statx.cpp L28: the flags that `stat` does not have are removed: AT_NO_AUTOMOUNT 0x800, AT_STATX_FORCE_SYNC 0x2000,
    AT_STATX_DONT_SYNC 0x4000. -/
def statFlags (flags : BitVec 32) : BitVec 32 := flags &&& ~~~ (0x800#32 ||| 0#32 ||| 0x2000#32 ||| 0x4000#32)

/-- L9-61: `stat` gives the information or an error for the flags; the buffer or the error. -/
def statx (stat : BitVec 32 → Info ⊕ Nat) (flags : BitVec 32) : Buf ⊕ Nat :=
  match stat (statFlags flags) with                                               -- L30-33
  | .inr e => .inr e
  | .inl s => .inl {
      blksize := s.blksize % 2 ^ 32, blocks := s.blocks % 2 ^ 64, gid := s.gid % 2 ^ 32, ino := s.ino % 2 ^ 64      -- L36-39
      mode := s.mode % 2 ^ 16, nlink := s.nlink % 2 ^ 32, size := s.size % 2 ^ 64, uid := s.uid % 2 ^ 32            -- L40-43
      atime := s.atime                                                            -- L45-46
      btime := s.mtime                                                            -- L47-48
      ctime := s.ctime                                                            -- L49-50
      mtime := s.mtime                                                            -- L51-52
      rdevMajor := major s.rdev, rdevMinor := minor s.rdev                        -- L54-55
      devMajor := major s.dev, devMinor := minor s.dev                            -- L56-57
      mask := 0x7ff ||| 0x800 }                                                   -- L58

/-- sys-socket.cpp L89-119: `recv` is the number of bytes and the length of the address, or an error; the result, errno, and the length of
    the address.  The number is put into an `int`. -/
def recvfrom (recv : (Int × Nat) ⊕ Nat) (addrlen : Option Nat) : Int × Nat × Option Nat :=
  let r : Int × Nat × Nat := match recv with                                      -- L112, L121-128
    | .inr e => (-1, e, addrlen.getD 0)
    | .inl (n, l) => (n, 0, l)
  let ret := (r.1 + 2 ^ 31) % 2 ^ 32 - 2 ^ 31
  if ret < 0 then (ret, r.2.1, addrlen)                                           -- L113-114
  else (ret, r.2.1, addrlen.map fun _ => r.2.2)                                   -- L116-118

/-! ## Theorems -/

/-- **C139.** `statx` on top of `stat` gives the basic information of the file, and errors as they are.  The hypotheses are the widths
    of the members.  Missing: the time of birth, see `statx_birth_violated`. -/
theorem statx_basic_partial (stat : BitVec 32 → Info ⊕ Nat) (flags : BitVec 32) :
    (∀ e, stat (statFlags flags) = .inr e → statx stat flags = .inr e) ∧
    (∀ i, stat (statFlags flags) = .inl i → i.blksize < 2 ^ 32 → i.blocks < 2 ^ 64 → i.gid < 2 ^ 32 → i.ino < 2 ^ 64 → i.mode < 2 ^ 16 →
      i.nlink < 2 ^ 32 → i.size < 2 ^ 64 → i.uid < 2 ^ 32 → ∃ b, statx stat flags = .inl b ∧ Basic i b ∧ b.mask &&& 0x7ff = 0x7ff) := by
  constructor
  · intro e h; unfold statx; rw [h]
  · intro i h h1 h2 h3 h4 h5 h6 h7 h8
    unfold statx
    rw [h]
    exact ⟨_, rfl, ⟨Nat.mod_eq_of_lt h1, Nat.mod_eq_of_lt h2, Nat.mod_eq_of_lt h3, Nat.mod_eq_of_lt h4, Nat.mod_eq_of_lt h5,
      Nat.mod_eq_of_lt h6, Nat.mod_eq_of_lt h7, Nat.mod_eq_of_lt h8, rfl, rfl, rfl, makedev_whole _, makedev_whole _⟩, by dsimp only; decide⟩

/-- **C139.** The flags that `stat` gets: AT_SYMLINK_NOFOLLOW (0x100) and AT_EMPTY_PATH (0x1000) are kept, and so is every flag but three. -/
theorem statx_flags (flags : BitVec 32) (i : Nat) (h : i < 32) :
    (statFlags flags).getLsbD i = (flags.getLsbD i && decide (i ≠ 11 ∧ i ≠ 13 ∧ i ≠ 14)) := by
  have hm : ∀ j : Fin 32, (~~~ (0x800#32 ||| 0#32 ||| 0x2000#32 ||| 0x4000#32)).getLsbD j.1 = decide (j.1 ≠ 11 ∧ j.1 ≠ 13 ∧ j.1 ≠ 14) := by decide
  unfold statFlags
  rw [BitVec.getLsbD_and, hm ⟨i, h⟩]

/-- A file whose time of birth is not that of its last change. -/
def aFile : Info := ⟨512, 8, 0, 7, 0o100644, 1, 100, 0, (5, 0), (6, 0), (6, 0), (1, 0), 0, 0x801#64⟩

/-- **C139 is violated.** The buffer claims to hold the time of birth (STATX_BTIME, 0x800), but holds that of the last change. -/
theorem statx_birth_violated : ∃ b, statx (fun _ => .inl aFile) 0 = .inl b ∧ b.mask &&& 0x800 = 0x800 ∧ b.btime = (6, 0) ∧ aFile.btime = (1, 0) :=
  ⟨_, rfl, by decide, rfl, rfl⟩

/-- The widths hold for that file. -/
example : ∃ b, statx (fun _ => .inl aFile) 0x800#32 = .inl b ∧ Basic aFile b := by
  obtain ⟨b, h1, h2, -⟩ := (statx_basic_partial (fun _ => .inl aFile) 0x800#32).2 aFile rfl (by decide) (by decide) (by decide) (by decide)
    (by decide) (by decide) (by decide) (by decide)
  exact ⟨b, h1, h2⟩

/-- **C140.** `recvfrom` gives the number of bytes received, at most 2^31 - 1, and the length of the address; or -1, the error, and the length
    as it was.  Missing: more bytes, see `recvfrom_violated`. -/
theorem recvfrom_spec_partial (addrlen : Option Nat) :
    (∀ n l, 0 ≤ n → n < 2 ^ 31 → recvfrom (.inl (n, l)) addrlen = (n, 0, addrlen.map fun _ => l)) ∧
    (∀ e, recvfrom (.inr e) addrlen = (-1, e, addrlen)) := by
  constructor
  · intro n l h1 h2
    have : (n + 2 ^ 31) % 2 ^ 32 - 2 ^ 31 = n := by omega
    simp only [recvfrom, this]
    rw [if_neg (by omega)]
  · intro e
    simp [recvfrom]

/-- **C140 is violated.** 2^31 bytes received are a negative result without an error; 2^32 bytes are 0, the end of the stream. -/
theorem recvfrom_violated : recvfrom (.inl (2 ^ 31, 16)) (some 128) = (-2147483648, 0, some 128) ∧
    recvfrom (.inl (2 ^ 32, 16)) none = (0, 0, none) := by decide

example : recvfrom (.inl (1500, 16)) (some 128) = (1500, 0, some 16) := (recvfrom_spec_partial (some 128)).1 1500 16 (by decide) (by decide)

end Mlibc.Statx
