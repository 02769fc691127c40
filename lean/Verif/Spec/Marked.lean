import Verif.Spec.Files
/-! # Specification: sections that do not belong in an executable -/
namespace Dld.Spec
open Dld

/-- The file has a COMDAT group with signature `sig` and the sections `members`: a section of type `SHT_GROUP` (17) whose words are `GRP_COMDAT` (1) and the
numbers of the members, and whose `sh_info` is the number of the symbol that is the signature. -/
structure ComdatGroup (x : Loaded) (sig : Name) (members : List Nat) : Prop where
  header : ∃ (g : Nat) (sh : SectionHeader) (s : Sym), x.elf.sectionHeaders[g]? = some sh ∧ sh.sh_type = 17 ∧ x.elf.syms[sh.sh_info]? = some s ∧ x.elf.symName s.st_name = some sig ∧
    sh.sh_size = 4 * (members.length + 1) ∧ ∀ k v, (1 :: members)[k]? = some v → field x.data (sh.sh_offset + 4 * k) 4 = v

/-- The format says that the section is not for executables: `SHF_EXCLUDE` (bit 31), or the table of a group (`SHT_GROUP`) -/
def ForLinkersOnly (sh : SectionHeader) : Prop := sh.sh_flags.testBit 31 = true ∨ sh.sh_type = 17

/-- Section number `i` of the file, with header `sh`, is in the output section `n`, `p` bytes from its start, except where its relocations apply. -/
def CopiedTo (file : Bytes) (n : Name) (p : Nat) (x : Loaded) (i : Nat) (sh : SectionHeader) : Prop :=
  ∃ o, sectionsNamed file n = [o] ∧ p + sh.sh_size ≤ (bodyOf file o).length ∧
    ∀ b < sh.sh_size, (∀ rel, x.elf.RelocOf i rel → ¬ MayPatch rel.rela b) → (bodyOf file o)[p + b]? = x.data[sh.sh_offset + b]?

end Dld.Spec
