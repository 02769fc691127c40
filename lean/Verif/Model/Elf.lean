import Verif.Model.Bytes
/-!
# ELF64 structures and constants

The structures and constants come from goblin 0.5 (`goblin::elf64`), used by
`src/elf.rs` 4-14, `src/elf/section.rs` 9, `src/elf/symbol_table.rs` 4-9,
`src/symbol.rs` 8-11 and `src/elf/chunk.rs` 2-5.
-/
namespace Dld

/-! ## section header constants -/
def SHT_NULL : Nat := 0
def SHT_PROGBITS : Nat := 1
def SHT_SYMTAB : Nat := 2
def SHT_STRTAB : Nat := 3
def SHT_RELA : Nat := 4
def SHT_HASH : Nat := 5
def SHT_DYNAMIC : Nat := 6
def SHT_NOBITS : Nat := 8
def SHT_REL : Nat := 9
def SHT_SHLIB : Nat := 10
def SHT_DYNSYM : Nat := 11
def SHT_INIT_ARRAY : Nat := 14
def SHT_FINI_ARRAY : Nat := 15
def SHT_GNU_HASH : Nat := 0x6ffffff6
def SHF_WRITE : Nat := 1
def SHF_ALLOC : Nat := 2
def SHF_EXECINSTR : Nat := 4
def SHN_UNDEF : Nat := 0
def SHN_ABS : Nat := 0xfff1

/-! ## program header constants -/
def PT_LOAD : Nat := 1
def PT_DYNAMIC : Nat := 2
def PT_INTERP : Nat := 3
def PT_PHDR : Nat := 6
def PF_X : Nat := 1
def PF_W : Nat := 2
def PF_R : Nat := 4

/-! ## symbol constants -/
def STB_LOCAL : Nat := 0
def STB_GLOBAL : Nat := 1
def STB_WEAK : Nat := 2
def STT_OBJECT : Nat := 1
def STT_FUNC : Nat := 2
def STT_SECTION : Nat := 3
def STT_TLS : Nat := 6

/-! ## relocation types -/
def R_X86_64_NONE : Nat := 0
def R_X86_64_64 : Nat := 1
def R_X86_64_PC32 : Nat := 2
def R_X86_64_GOT32 : Nat := 3
def R_X86_64_PLT32 : Nat := 4
def R_X86_64_COPY : Nat := 5
def R_X86_64_GLOB_DAT : Nat := 6
def R_X86_64_JUMP_SLOT : Nat := 7
def R_X86_64_GOTPCREL : Nat := 9
def R_X86_64_32 : Nat := 10
def R_X86_64_32S : Nat := 11
def R_X86_64_16 : Nat := 12
def R_X86_64_PC16 : Nat := 13
def R_X86_64_8 : Nat := 14
def R_X86_64_PC8 : Nat := 15
def R_X86_64_TLSGD : Nat := 19
def R_X86_64_GOTTPOFF : Nat := 22
def R_X86_64_TPOFF32 : Nat := 23
def R_X86_64_GOTOFF64 : Nat := 25
def R_X86_64_GOTPC32 : Nat := 26
def R_X86_64_GOTPCRELX : Nat := 41
def R_X86_64_REX_GOTPCRELX : Nat := 42

/-! ## file header constants -/
def ET_EXEC : Nat := 2
def ET_DYN : Nat := 3
def EM_X86_64 : Nat := 62
def EV_CURRENT : Nat := 1
def ELFCLASS64 : UInt8 := 2
def ELFDATA2LSB : UInt8 := 1
def ELFMAG : Bytes := [0x7f, 0x45, 0x4c, 0x46]

/-- `goblin::elf64::header::Header` -/
structure Header where
  e_ident : Bytes
  e_type : Nat
  e_machine : Nat
  e_version : Nat
  e_entry : Nat
  e_phoff : Nat
  e_shoff : Nat
  e_flags : Nat
  e_ehsize : Nat
  e_phentsize : Nat
  e_phnum : Nat
  e_shentsize : Nat
  e_shnum : Nat
  e_shstrndx : Nat
  deriving DecidableEq, Repr

/-- `goblin::elf64::program_header::ProgramHeader` -/
structure ProgramHeader where
  p_type : Nat
  p_flags : Nat
  p_offset : Nat
  p_vaddr : Nat
  p_paddr : Nat
  p_filesz : Nat
  p_memsz : Nat
  p_align : Nat
  deriving DecidableEq, Repr

/-- `goblin::elf64::section_header::SectionHeader` (`Default` is all zero) -/
structure SectionHeader where
  sh_name : Nat := 0
  sh_type : Nat := 0
  sh_flags : Nat := 0
  sh_addr : Nat := 0
  sh_offset : Nat := 0
  sh_size : Nat := 0
  sh_link : Nat := 0
  sh_info : Nat := 0
  sh_addralign : Nat := 0
  sh_entsize : Nat := 0
  deriving DecidableEq, Repr

/-- `goblin::elf64::sym::Sym` (`Default` is all zero) -/
structure Sym where
  st_name : Nat := 0
  st_info : Nat := 0
  st_other : Nat := 0
  st_shndx : Nat := 0
  st_value : Nat := 0
  st_size : Nat := 0
  deriving DecidableEq, Repr

/-- `goblin::elf64::reloc::Rela` -/
structure Rela where
  r_offset : Nat
  r_info : Nat
  r_addend : Int
  deriving DecidableEq, Repr

/-- `goblin::elf64::reloc::r_type`: the low 32 bits of `r_info`. -/
def r_type (info : Nat) : Nat := info % 4294967296

/-- `size_of` of the on-disk structures (`#[repr(C)]` in goblin). -/
def sizeofHeader : Nat := 64
def sizeofProgramHeader : Nat := 56
def sizeofSectionHeader : Nat := 64
def sizeofSym : Nat := 24
def sizeofRela : Nat := 24

/-- `elf::DynTag` (`src/elf.rs` 73-140), the tags the crate emits. -/
inductive DynTag where
  | null | needed | pltRelSz | pltGot | hash | strTab | symTab | rela | relaSize | relaEnt
  | strSize | symEnt | init | fini | pltRel | jmpRel | initArray | finiArray | initArraySize
  | finiArraySize | gnuHash | relaCount
  deriving DecidableEq, Repr

/-- discriminants of `DynTag` (`src/elf.rs` 73-140) -/
def DynTag.toNat : DynTag → Nat
  | .null => 0 | .needed => 1 | .pltRelSz => 2 | .pltGot => 3 | .hash => 4 | .strTab => 5
  | .symTab => 6 | .rela => 7 | .relaSize => 8 | .relaEnt => 9 | .strSize => 10 | .symEnt => 11
  | .init => 12 | .fini => 13 | .pltRel => 20 | .jmpRel => 23 | .initArray => 25
  | .finiArray => 26 | .initArraySize => 27 | .finiArraySize => 28
  | .gnuHash => 0x6ffffef5 | .relaCount => 0x6ffffff9

end Dld
