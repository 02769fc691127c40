import Verif.Model.SymbolTable
/-! # `HashTable` and `GnuHashTable` (`src/elf/symbol_table.rs` 248-252, 275-462) -/
namespace Dld

/-- `HashTable` (`src/elf/symbol_table.rs` 275-281) -/
structure HashTable where
  nbuckets : Nat := 0
  nchains : Nat := 0
  buckets : List Nat := []
  chains : List Nat := []
  deriving DecidableEq, Repr

namespace HashTable

/-- `HashTable::new` (`src/elf/symbol_table.rs` 284-286) -/
def mk' (buckets chains : List Nat) : HashTable :=
  { nbuckets := u32 buckets.length, nchains := u32 chains.length, buckets, chains }

/-- `HashTable::size` (`src/elf/symbol_table.rs` 288-290) -/
def size (h : HashTable) : Nat := 4 * (h.nbuckets + h.nchains + 2)

/-- The `while next != 0` loop (`src/elf/symbol_table.rs` 302-306): follow the chain from
`chainIndex` to its last element. `none` is an out-of-range index (panic) or a chain longer than
the fuel (a loop that does not terminate). -/
def chainEnd (chains : List Nat) : (fuel : Nat) → (chainIndex : Nat) → Option Nat
  | 0, _ => none
  | fuel + 1, chainIndex =>
    match chains[chainIndex]? with
    | none => none
    | some 0 => some chainIndex
    | some (next + 1) => chainEnd chains fuel (next + 1)

/-- The body of the loop of `add_symbols` (`src/elf/symbol_table.rs` 296-309), for symbol number
`symbolIndex` with SysV hash `hash`. -/
def addOne (nbuckets : Nat) (st : List Nat × List Nat) (symbolIndex : Nat) (hash : UInt32) :
    Option (List Nat × List Nat) :=
  let (buckets, chains) := st
  let bucketIndex := hash.toNat % nbuckets
  match buckets[bucketIndex]? with
  | none => none
  | some chainIndex =>
    if chainIndex = 0 then some (buckets.set bucketIndex (u32 symbolIndex), chains)
    else
      match chainEnd chains (chains.length + 1) chainIndex with
      | none => none
      | some e => some (buckets, chains.set e (u32 symbolIndex))

/-- The loop of `add_symbols` over the remaining symbols, the first having number `i`. -/
def addLoop (nbuckets : Nat) : List Nat × List Nat → Nat → List UInt32 → Option (List Nat × List Nat)
  | st, _, [] => some st
  | st, i, h :: hs =>
    match addOne nbuckets st i h with
    | none => none
    | some st' => addLoop nbuckets st' (i + 1) hs

/-- `HashTable::add_symbols` (`src/elf/symbol_table.rs` 292-311) on the SysV hashes of the symbols. -/
def addSymbols (hashes : List UInt32) : Option HashTable :=
  let nbuckets := u32 hashes.length / 2 + 1
  (addLoop nbuckets (List.replicate nbuckets 0, List.replicate hashes.length 0) 0 hashes).map
    fun (b, c) => mk' b c

end HashTable

/-- `impl Serialize for HashTable` (`src/serialize.rs` 112-121) -/
def serHashTable (h : HashTable) : Bytes :=
  le 4 h.nbuckets ++ le 4 h.nchains ++ (h.buckets ++ h.chains).flatMap (le 4)

/-- `GnuHashTable` (`src/elf/symbol_table.rs` 350-359) -/
structure GnuHashTable where
  nbuckets : Nat := 0
  buckets : List Nat := []
  symOffset : Nat := 0
  bloomSize : Nat := 0
  bloomShift : Nat := 0
  bloom : List Nat := []
  chains : List UInt32 := []
  deriving DecidableEq, Repr

/-- `u32::next_power_of_two` -/
def nextPow2 (n : Nat) : Nat := if n ≤ 1 then 1 else 2 ^ (Nat.log2 (n - 1) + 1)

namespace GnuHashTable

/-- `GnuHashTable::size` (`src/elf/symbol_table.rs` 362-368) -/
def size (h : GnuHashTable) : Nat :=
  4 * 4 + h.bloom.length * 8 + h.buckets.length * 4 + h.chains.length * 4

/-- `calculate_bloom` (`src/elf/symbol_table.rs` 248-252); `bloom` is never empty. -/
def calculateBloom (bloom : List Nat) (hash : UInt32) (elfclassBits bloomShift : Nat) : List Nat :=
  let index := hash.toNat / elfclassBits % u32 bloom.length
  let bloom := bloom.modify index (· ||| 1 <<< (hash.toNat % elfclassBits))
  bloom.modify index (· ||| 1 <<< ((hash.toNat >>> bloomShift) % elfclassBits))

/-- The bucket loop (`src/elf/symbol_table.rs` 391-397); `i` counts from 0 over `symbols[1..]`. -/
def fillBuckets (nbuckets : Nat) : List Nat → Nat → List UInt32 → List Nat
  | buckets, _, [] => buckets
  | buckets, i, h :: hs =>
    let index := h.toNat % nbuckets
    let buckets := if buckets[index]? = some 0 then buckets.set index (u32 (i + 1)) else buckets
    fillBuckets nbuckets buckets (i + 1) hs

/-- The chain loop (`src/elf/symbol_table.rs` 399-415): the low bit marks the last symbol before
the bucket changes. -/
def fillChains (nbuckets : Nat) : List UInt32 → List UInt32
  | [] => []
  | [h] => [h ||| 1]
  | h :: h' :: hs =>
    (if h.toNat % nbuckets ≠ h'.toNat % nbuckets then h ||| 1 else h &&& ~~~1)
      :: fillChains nbuckets (h' :: hs)

/-- `GnuHashTable::add_symbols` (`src/elf/symbol_table.rs` 370-426) on the GNU hashes of all symbols
(the first being the null symbol's). `none`: the list is empty (`len - 1` panics). The `u32`
multiplication by 12 is taken without overflow. -/
def addSymbols (hashes : List UInt32) : Option GnuHashTable :=
  match hashes with
  | [] => none
  | _ :: rest =>
    let elfclassBits := 64
    let bits := (u32 hashes.length - 1) * 12
    let bloomSize := nextPow2 (bits / elfclassBits)
    let bloomShift := 26
    let nbuckets := u32 hashes.length / 8 + 1
    let bloom := rest.foldl (fun b h => calculateBloom b h elfclassBits bloomShift)
      (List.replicate bloomSize 0)
    some {
      nbuckets
      buckets := fillBuckets nbuckets (List.replicate nbuckets 0) 0 rest
      symOffset := 1
      bloomShift, bloomSize, bloom
      chains := fillChains nbuckets rest }

end GnuHashTable

/-- `impl Serialize for GnuHashTable` (`src/serialize.rs` 123-137) -/
def serGnuHashTable (h : GnuHashTable) : Bytes :=
  le 4 h.nbuckets ++ le 4 h.symOffset ++ le 4 h.bloomSize ++ le 4 h.bloomShift
    ++ h.bloom.flatMap (le 8) ++ h.buckets.flatMap (le 4)
    ++ h.chains.flatMap (fun c => le 4 c.toNat)

end Dld
