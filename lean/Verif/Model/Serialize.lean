import Verif.Model.Elf
/-!
# `src/serialize.rs`

`serialize` appends bytes to a buffer and returns a nominal size. The model returns the
appended bytes; the returned size is `sizeof*` (the constant the Rust code returns).
-/
namespace Dld

/-- `impl Serialize for Header` (`src/serialize.rs` 15-33) -/
def serHeader (h : Header) : Bytes :=
  h.e_ident ++ le 2 h.e_type ++ le 2 h.e_machine ++ le 4 h.e_version ++ le 8 h.e_entry
    ++ le 8 h.e_phoff ++ le 8 h.e_shoff ++ le 4 h.e_flags ++ le 2 h.e_ehsize
    ++ le 2 h.e_phentsize ++ le 2 h.e_phnum ++ le 2 h.e_shentsize ++ le 2 h.e_shnum
    ++ le 2 h.e_shstrndx

/-- `impl Serialize for ProgramHeader` (`src/serialize.rs` 35-47) -/
def serProgramHeader (p : ProgramHeader) : Bytes :=
  le 4 p.p_type ++ le 4 p.p_flags ++ le 8 p.p_offset ++ le 8 p.p_vaddr ++ le 8 p.p_paddr
    ++ le 8 p.p_filesz ++ le 8 p.p_memsz ++ le 8 p.p_align

/-- `impl Serialize for SectionHeader` (`src/serialize.rs` 49-63) -/
def serSectionHeader (s : SectionHeader) : Bytes :=
  le 4 s.sh_name ++ le 4 s.sh_type ++ le 8 s.sh_flags ++ le 8 s.sh_addr ++ le 8 s.sh_offset
    ++ le 8 s.sh_size ++ le 4 s.sh_link ++ le 4 s.sh_info ++ le 8 s.sh_addralign
    ++ le 8 s.sh_entsize

/-- `impl Serialize for Sym` (`src/serialize.rs` 65-75) -/
def serSym (s : Sym) : Bytes :=
  le 4 s.st_name ++ le 1 s.st_info ++ le 1 s.st_other ++ le 2 s.st_shndx ++ le 8 s.st_value
    ++ le 8 s.st_size

/-- `impl Serialize for Name` (`src/serialize.rs` 77-83) -/
def serName (n : Name) : Bytes := n ++ [0]

/-- `impl Serialize for Rela` (`src/serialize.rs` 85-92) -/
def serRela (r : Rela) : Bytes := le 8 r.r_offset ++ le 8 r.r_info ++ leInt 8 r.r_addend

/-- `impl Serialize for (DynTag, u64)` (`src/serialize.rs` 104-110) -/
def serDyn (d : DynTag × Nat) : Bytes := le 8 d.1.toNat ++ le 8 d.2

/-- `impl Serialize for Vec<S>` (`src/serialize.rs` 94-102): concatenation. -/
def serVec {α : Type} (ser : α → Bytes) (l : List α) : Bytes := l.flatMap ser

end Dld
