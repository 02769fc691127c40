import Verif.Spec.Decode
/-! # Specification: symbol lookup in `.hash` and `.gnu.hash`

Written from the System V gABI ("Hash Table Section") and glibc's `do_lookup_x`; they read the
section image only. -/
namespace Dld.Spec

/-- Follow a SysV chain from symbol index `i` until `STN_UNDEF`; the symbols visited. `none`: more
steps than allowed. -/
def sysvWalk (chain : Nat → Nat) : (fuel : Nat) → (i : Nat) → Option (List Nat)
  | 0, i => if i = 0 then some [] else none
  | fuel + 1, i => if i = 0 then some [] else (sysvWalk chain fuel (chain i)).map (i :: ·)

/-- The symbols a gABI lookup of hash `h` compares: word 0 is `nbucket`, word 1 `nchain`, then the
buckets and the chains. No chain may be longer than `nchain`. -/
def sysvVisited (img : List UInt8) (h : Nat) : Option (List Nat) :=
  let nb := field img 0 4
  let nc := field img 4 4
  sysvWalk (fun i => field img (8 + 4 * nb + 4 * i) 4) nc (field img (8 + 4 * (h % nb)) 4)

/-- The bloom filter test of `do_lookup_x`: both bits of the word selected by the hash. -/
def gnuBloomTest (img : List UInt8) (h : Nat) : Bool :=
  let bloomSize := field img 8 4
  let shift := field img 12 4
  let w := field img (16 + 8 * ((h / 64) &&& (bloomSize - 1))) 8
  w.testBit (h % 64) && w.testBit ((h >>> shift) % 64)

/-- Walk the hash chain from symbol `i`: compare all but the low bit, stop after an entry whose low
bit is set. The symbols whose hash matches. -/
def gnuWalk (chain : Nat → Nat) (h : Nat) : (fuel : Nat) → (i : Nat) → Option (List Nat)
  | 0, _ => none
  | fuel + 1, i =>
    (if chain i % 2 = 1 then some [] else gnuWalk chain h fuel (i + 1)).map fun l =>
      if chain i / 2 = h / 2 then i :: l else l

/-- The symbols whose names the loader compares when it looks up hash `h`. -/
def gnuCandidates (img : List UInt8) (h : Nat) : Option (List Nat) :=
  let nb := field img 0 4
  let symOffset := field img 4 4
  let bloomSize := field img 8 4
  let buckets := 16 + 8 * bloomSize
  if gnuBloomTest img h then
    let b := field img (buckets + 4 * (h % nb)) 4
    if b = 0 then some []
    else gnuWalk (fun i => field img (buckets + 4 * nb + 4 * (i - symOffset)) 4) h img.length b
  else some []

end Dld.Spec
