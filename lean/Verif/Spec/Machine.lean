import Verif.Spec.Decode
/-! # Specification: the machine an ELF file is for -/
namespace Dld.Spec

/-- the class (2 = 64 bit), the byte order (1 = least significant first) and the machine (62 = x86-64) in the header of an ELF file -/
def machineOf (data : List UInt8) : Nat × Nat × Nat := (field data 4 1, field data 5 1, field data 18 2)

/-- 64 bit code for x86-64 -/
def x8664 : Nat × Nat × Nat := (2, 1, 62)

end Dld.Spec
