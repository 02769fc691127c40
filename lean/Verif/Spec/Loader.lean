import Verif.Spec.File
/-! # Specification: the memory of a new process

What the kernel makes of an executable: the `PT_LOAD` (1) program headers say which bytes of the file
appear at which addresses; what a segment has more in memory than in the file is zero. -/
namespace Dld.Spec

/-- the segment that an address belongs to: the first that contains it -/
def segmentAt (file : List UInt8) (a : Nat) : Option EPhdr :=
  (phdrs file).find? fun p => p.type == 1 && decide (p.vaddr ≤ a) && decide (a < p.vaddr + p.memsz)

/-- the byte at an address; nothing if no segment contains the address -/
def memAt (file : List UInt8) (a : Nat) : Option UInt8 :=
  match segmentAt file a with
  | none => none
  | some p => if a - p.vaddr < p.filesz then file[p.offset + (a - p.vaddr)]? else some 0

/-- the bytes at `a`, `a + 1`, ..., `a + n - 1` -/
def memory (file : List UInt8) (a n : Nat) : List (Option UInt8) := (List.range n).map fun i => memAt file (a + i)

/-- the section occupies memory at run time: `SHF_ALLOC`, bit 1 of the flags -/
def EShdr.allocated (s : EShdr) : Bool := s.flags.testBit 1

/-- the bytes of the file that a program header gives -/
def EPhdr.bytes (file : List UInt8) (p : EPhdr) : List UInt8 := slice file p.offset p.filesz

/-- the program headers of a type -/
def phdrsOf (file : List UInt8) (type : Nat) : List EPhdr := (phdrs file).filter fun p => p.type == type

end Dld.Spec
