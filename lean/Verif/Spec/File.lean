import Verif.Spec.Decode
/-! # Specification: reading an ELF64 executable

What a loader or another tool finds in a file, from the bytes of the file alone. -/
namespace Dld.Spec

/-- the section headers: `e_shnum` entries of `e_shentsize` bytes at `e_shoff` -/
def shdrs (file : List UInt8) : List EShdr :=
  let h := decodeEhdr file
  (List.range h.shnum).map fun i => decodeShdr file (h.shoff + h.shentsize * i)

/-- the program headers: `e_phnum` entries of `e_phentsize` bytes at `e_phoff` -/
def phdrs (file : List UInt8) : List EPhdr :=
  let h := decodeEhdr file
  (List.range h.phnum).map fun i => decodePhdr file (h.phoff + h.phentsize * i)

/-- the number of bytes of a section in the file: none if it is `SHT_NOBITS` (8) -/
def EShdr.fileSize (s : EShdr) : Nat := if s.type = 8 then 0 else s.size

/-- the bytes of a section -/
def bodyOf (file : List UInt8) (s : EShdr) : List UInt8 := slice file s.offset s.fileSize

/-- the section name table: the section `e_shstrndx` -/
def nameTable (file : List UInt8) : List UInt8 :=
  match (shdrs file)[(decodeEhdr file).shstrndx]? with
  | some s => bodyOf file s
  | none => []

/-- the name of a section -/
def nameOf (file : List UInt8) (s : EShdr) : Option (List UInt8) := cstrAt (nameTable file) s.name

/-- the sections of a name -/
def sectionsNamed (file : List UInt8) (name : List UInt8) : List EShdr :=
  (shdrs file).filter fun s => nameOf file s == some name

/-- the entries of a symbol table section -/
def symsOf (img : List UInt8) : List ESym := (List.range (img.length / 24)).map fun i => decodeSym img (24 * i)

/-- the entries of a RELA section -/
def relasOf (img : List UInt8) : List ERela := (List.range (img.length / 24)).map fun i => decodeRela img (24 * i)

/-- the entries of a dynamic section -/
def dynsOf (img : List UInt8) : List (Nat × Nat) := (List.range (img.length / 16)).map fun i => decodeDyn img (16 * i)

/-- the only section of a name -/
def sectionNamed (file : List UInt8) (name : List UInt8) : Option EShdr :=
  match sectionsNamed file name with
  | [s] => some s
  | _ => none

/-- the bytes of the only section of a name -/
def bodyNamed (file : List UInt8) (name : List UInt8) : List UInt8 :=
  match sectionNamed file name with
  | some s => bodyOf file s
  | none => []

/-- the address of the only section of a name -/
def addrNamed (file : List UInt8) (name : List UInt8) : Nat :=
  match sectionNamed file name with
  | some s => s.addr
  | none => 0

end Dld.Spec
