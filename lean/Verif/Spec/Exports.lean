import Verif.Spec.Got
/-! # Specification: what the executable offers to the libraries of the process

From the ELF gABI: a reference of a shared library is looked up in the dynamic symbol table of the executable first, among the entries that are
defined, that is, whose section number is not 0. -/
namespace Dld.Spec

/-- entry `k` of the dynamic symbol table is a definition of `n` -/
structure Offers (file : List UInt8) (k : Nat) (n : List UInt8) (y : ESym) : Prop where
  entry : (symsOf (bodyNamed file b!".dynsym"))[k]? = some y
  name : dynName file k = some n
  defined : y.shndx ≠ 0

/-- the symbol lies in the section `s`, and that is the section whose number it has -/
structure LiesIn (file : List UInt8) (y : ESym) (s : EShdr) : Prop where
  section_ : (shdrs file)[y.shndx]? = some s
  first : s.addr ≤ y.value
  last : y.value + y.size ≤ s.addr + s.size

end Dld.Spec
