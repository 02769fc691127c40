import Verif.Model.Bytes
/-! # `src/name.rs`: the two symbol hashes

`Name` itself (owned or static string with content equality, `src/name.rs` 6-45) is a byte list.
-/
namespace Dld

/-- One iteration of the loop of `Name::elf_hash` (`src/name.rs` 52-59). `<<` on `u32` drops the
high bits; `wrapping_add`, `>>`, `^`, `&`, `!` are the `u32` operations. -/
def elfHashStep (h : UInt32) (b : UInt8) : UInt32 :=
  let h := (h <<< 4) + b.toUInt32
  let g := h &&& 0xf0000000
  let h := if g != 0 then h ^^^ (g >>> 24) else h
  h &&& ~~~g

/-- `Name::elf_hash` (`src/name.rs` 49-61) -/
def elfHash (n : Name) : UInt32 := n.foldl elfHashStep 0

/-- One iteration of the loop of `Name::elf_gnu_hash` (`src/name.rs` 66-68). -/
def elfGnuHashStep (h : UInt32) (b : UInt8) : UInt32 := (h <<< 5) + h + b.toUInt32

/-- `Name::elf_gnu_hash` (`src/name.rs` 64-70) -/
def elfGnuHash (n : Name) : UInt32 := n.foldl elfGnuHashStep 5381

end Dld
