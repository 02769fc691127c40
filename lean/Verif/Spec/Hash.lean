/-! # Specification of the two symbol hashes

Arithmetic on natural numbers, independent of the machine-word code. -/
namespace Dld.Spec

/-- System V gABI, "Hash Table": `h = (h << 4) + c; if (g = h & 0xf0000000) h ^= g >> 24; h &= ~g`.
With `t = 16 h + c`, the nibble at bits 28-31 is folded into bits 4-7 and everything from bit 28 up
is cleared (`unsigned long` is 32 bits wide in the gABI). -/
def sysvStep (h c : Nat) : Nat :=
  let t := 16 * h + c
  (t % 2 ^ 28) ^^^ (16 * (t / 2 ^ 28 % 16))

/-- The gABI hash of a byte string. -/
def sysvHash (name : List UInt8) : Nat := name.foldl (fun h b => sysvStep h b.toNat) 0

/-- `b_0 * 33^(n-1) + ... + b_(n-1)` -/
def poly33 : List UInt8 → Nat
  | [] => 0
  | b :: bs => b.toNat * 33 ^ bs.length + poly33 bs

/-- The GNU hash of a byte string (Bernstein's hash, seed 5381, modulo 2^32). -/
def gnuHash (name : List UInt8) : Nat := (5381 * 33 ^ name.length + poly33 name) % 2 ^ 32

end Dld.Spec
