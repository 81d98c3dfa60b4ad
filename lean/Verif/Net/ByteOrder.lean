/-
Byte-order conversion (options/posix/generic/arpa-inet.cpp L16-43, options/internal/include/mlibc/bitutil.hpp L11-51),
on hosts of either byte order. The compiler's `__builtin_bswap*` are modelled by their documentation: byte reversal.
Numbers are naturals below the type's limit. Property C50.
-/
namespace Mlibc.ByteOrder

inductive Endian where
  | little | big
  deriving DecidableEq, Repr

/-- bitutil.hpp L41-43 -/
def bswap16 (x : Nat) : Nat := x % 256 * 256 + x / 256

/-- bitutil.hpp L27-29 -/
def bswap32 (x : Nat) : Nat := bswap16 (x % 65536) * 65536 + bswap16 (x / 65536)

/-- bitutil.hpp L13-15 -/
def bswap64 (x : Nat) : Nat := bswap32 (x % 4294967296) * 4294967296 + bswap32 (x / 4294967296)

/-- arpa-inet.cpp L16-22 -/
def htonl : Endian → Nat → Nat
  | .little, x => bswap32 x
  | .big, x => x

/-- L23-29 -/
def htons : Endian → Nat → Nat
  | .little, x => bswap16 x
  | .big, x => x

/-- L30-36 -/
def ntohl : Endian → Nat → Nat
  | .little, x => bswap32 x
  | .big, x => x

/-- L37-43 -/
def ntohs : Endian → Nat → Nat
  | .little, x => bswap16 x
  | .big, x => x

/-- bitutil.hpp L16-22 -/
def beToHost64 : Endian → Nat → Nat
  | .little, x => bswap64 x
  | .big, x => x

/-- bitutil.hpp L30-36 -/
def beToHost32 : Endian → Nat → Nat
  | .little, x => bswap32 x
  | .big, x => x

/-! ## Specification -/

/-- The `n` bytes of a number, least significant first. -/
def leBytes : Nat → Nat → List Nat
  | 0, _ => []
  | n + 1, x => x % 256 :: leBytes n (x / 256)

/-- The bytes of an object of `n` bytes with value `x` in the memory of a host, lowest address first. -/
def memory : Endian → Nat → Nat → List Nat
  | .little, n, x => leBytes n x
  | .big, n, x => (leBytes n x).reverse

/-- Network order: most significant byte first. -/
def network (n x : Nat) : List Nat := (leBytes n x).reverse

/-! ## Theorems -/

theorem bswap16_lt {x : Nat} (h : x < 2 ^ 16) : bswap16 x < 2 ^ 16 := by unfold bswap16; omega

theorem bswap16_bswap16 {x : Nat} (h : x < 2 ^ 16) : bswap16 (bswap16 x) = x := by unfold bswap16; omega

theorem bswap32_lt {x : Nat} (h : x < 2 ^ 32) : bswap32 x < 2 ^ 32 := by unfold bswap32 bswap16; omega

theorem bswap32_bswap32 {x : Nat} (h : x < 2 ^ 32) : bswap32 (bswap32 x) = x := by
  have h1 := bswap16_lt (x := x / 65536) (by omega)
  have a : bswap32 x / 65536 = bswap16 (x % 65536) := by unfold bswap32; omega
  have b : bswap32 x % 65536 = bswap16 (x / 65536) := by unfold bswap32; omega
  rw [bswap32, a, b, bswap16_bswap16 (by omega), bswap16_bswap16 (by omega)]
  omega

theorem bswap64_lt {x : Nat} (h : x < 2 ^ 64) : bswap64 x < 2 ^ 64 := by
  unfold bswap64
  have h1 := bswap32_lt (x := x % 4294967296) (by omega)
  have h2 := bswap32_lt (x := x / 4294967296) (by omega)
  omega

theorem leBytes_add (n m x : Nat) : leBytes (n + m) x = leBytes n x ++ leBytes m (x / 256 ^ n) := by
  induction n generalizing x with
  | zero => simp [leBytes]
  | succ n ih =>
    rw [Nat.add_right_comm, leBytes, leBytes, ih, Nat.div_div_eq_div_mul, List.cons_append, Nat.pow_succ, Nat.mul_comm]

theorem leBytes_mod (n x k : Nat) : leBytes n (k * 256 ^ n + x) = leBytes n x := by
  induction n generalizing x with
  | zero => rfl
  | succ n ih =>
    have h : (k * 256 ^ (n + 1) + x) = 256 * (k * 256 ^ n) + x := by
      rw [Nat.pow_succ, Nat.mul_comm (256 ^ n) 256, ← Nat.mul_assoc, Nat.mul_comm k 256, Nat.mul_assoc]
    rw [leBytes, leBytes, h, Nat.mul_add_mod, Nat.mul_add_div (by omega), ih]

theorem leBytes_bswap16 (x : Nat) (h : x < 2 ^ 16) : leBytes 2 (bswap16 x) = (leBytes 2 x).reverse := by
  simp only [leBytes, bswap16, List.reverse_cons, List.reverse_nil, List.nil_append, List.cons_append]
  have a : (x % 256 * 256 + x / 256) / 256 = x % 256 := by omega
  have b : (x % 256 * 256 + x / 256) % 256 = x / 256 := by omega
  rw [a, b]
  simp only [List.cons.injEq, and_true]
  omega

theorem leBytes_bswap32 (x : Nat) (h : x < 2 ^ 32) : leBytes 4 (bswap32 x) = (leBytes 4 x).reverse := by
  have h1 := bswap16_lt (x := x / 65536) (by omega)
  have e1 := leBytes_add 2 2 (bswap32 x)
  have e2 := leBytes_add 2 2 x
  have hm := leBytes_mod 2 x
  have a : bswap32 x / 256 ^ 2 = bswap16 (x % 65536) := by unfold bswap32; omega
  have b : leBytes 2 (bswap32 x) = leBytes 2 (bswap16 (x / 65536)) := by
    unfold bswap32; exact leBytes_mod 2 _ _
  have c : leBytes 2 x = leBytes 2 (x % 65536) := by
    conv => lhs; rw [← Nat.div_add_mod x 65536, Nat.mul_comm]
    exact leBytes_mod 2 _ _
  rw [e1, e2, a, b, leBytes_bswap16 _ (by omega), leBytes_bswap16 _ (by omega), List.reverse_append, c]

theorem leBytes_bswap64 (x : Nat) (h : x < 2 ^ 64) : leBytes 8 (bswap64 x) = (leBytes 8 x).reverse := by
  have h1 := bswap32_lt (x := x / 4294967296) (by omega)
  have e1 := leBytes_add 4 4 (bswap64 x)
  have e2 := leBytes_add 4 4 x
  have a : bswap64 x / 256 ^ 4 = bswap32 (x % 4294967296) := by unfold bswap64; omega
  have b : leBytes 4 (bswap64 x) = leBytes 4 (bswap32 (x / 4294967296)) := by
    unfold bswap64; exact leBytes_mod 4 _ _
  have c : leBytes 4 x = leBytes 4 (x % 4294967296) := by
    conv => lhs; rw [← Nat.div_add_mod x 4294967296, Nat.mul_comm]
    exact leBytes_mod 4 _ _
  rw [e1, e2, a, b, leBytes_bswap32 _ (by omega), leBytes_bswap32 _ (by omega), List.reverse_append, c]

/-- **C50**: on every host, the bytes in memory of `htonl(x)`, `htons(x)` are those of `x` in network order. -/
theorem hton_network (e : Endian) : (∀ x < 2 ^ 32, memory e 4 (htonl e x) = network 4 x) ∧
    (∀ x < 2 ^ 16, memory e 2 (htons e x) = network 2 x) := by
  cases e
  · exact ⟨fun x h => leBytes_bswap32 x h, fun x h => leBytes_bswap16 x h⟩
  · exact ⟨fun _ _ => rfl, fun _ _ => rfl⟩

/-- **C50**: `ntohl`, `ntohs` and the internal big-endian readers give the number whose network-order bytes are in
memory. -/
theorem ntoh_network (e : Endian) : (∀ x < 2 ^ 32, network 4 (ntohl e x) = memory e 4 x) ∧
    (∀ x < 2 ^ 16, network 2 (ntohs e x) = memory e 2 x) ∧ (∀ x < 2 ^ 32, network 4 (beToHost32 e x) = memory e 4 x) ∧
    (∀ x < 2 ^ 64, network 8 (beToHost64 e x) = memory e 8 x) := by
  cases e
  · refine ⟨fun x h => ?_, fun x h => ?_, fun x h => ?_, fun x h => ?_⟩
    · simp only [network, ntohl, memory]; rw [leBytes_bswap32 x h, List.reverse_reverse]
    · simp only [network, ntohs, memory]; rw [leBytes_bswap16 x h, List.reverse_reverse]
    · simp only [network, beToHost32, memory]; rw [leBytes_bswap32 x h, List.reverse_reverse]
    · simp only [network, beToHost64, memory]; rw [leBytes_bswap64 x h, List.reverse_reverse]
  · exact ⟨fun _ _ => rfl, fun _ _ => rfl, fun _ _ => rfl, fun _ _ => rfl⟩

/-- **C50**: the conversions are mutually inverse, and stay in range. -/
theorem hton_inverse (e : Endian) : (∀ x < 2 ^ 32, htonl e x < 2 ^ 32 ∧ ntohl e (htonl e x) = x ∧ htonl e (ntohl e x) = x) ∧
    (∀ x < 2 ^ 16, htons e x < 2 ^ 16 ∧ ntohs e (htons e x) = x ∧ htons e (ntohs e x) = x) := by
  cases e
  · exact ⟨fun x h => ⟨bswap32_lt h, bswap32_bswap32 h, bswap32_bswap32 h⟩,
      fun x h => ⟨bswap16_lt h, bswap16_bswap16 h, bswap16_bswap16 h⟩⟩
  · exact ⟨fun x h => ⟨h, rfl, rfl⟩, fun x h => ⟨h, rfl, rfl⟩⟩

example : memory .little 4 (htonl .little 0x0A000001) = [10, 0, 0, 1] := by decide
example : htons .little 80 = 20480 := by decide

end Mlibc.ByteOrder
