import Verif.Spec.Blame
import Verif.Spec.Progress
import Verif.Spec.Numbers
/-! # Input files a link cannot choke on

The requirements on the object files, archives and libraries themselves, written down from the ELF and x86-64 ABI documents. -/
namespace Dld
open Spec

/-- Complete files: sections lie inside their files; nothing without a name is `SHT_NOBITS`; section symbols have no names; relocations
refer to symbols that exist, and a relocation section is not the first section; libraries can be parsed; the index of an archive lists
members that exist and that are object files. Paths of libraries and of the dynamic linker have a file name. -/
structure SoundFiles (env : Env) (l : Linker) : Prop where
  loader : l.options.dynamicLinker.file.isSome
  inside : ∀ p d e sh, InputAt env l p d e → sh ∈ e.sectionHeaders → sh.sh_type ∉ auxiliaryTypes → sh.sh_type ≠ 8 →
    sh.sh_offset + sh.sh_size ≤ d.length
  unnamed : ∀ p d e sh, InputAt env l p d e → e.Copies sh [] → sh.sh_type ≠ 8
  nameless : ∀ p d e s n, InputAt env l p d e → s ∈ e.syms → s.st_info % 16 = 3 → e.symName s.st_name = some n → n = []
  symbols : ∀ p d e k pos j rel, InputAt env l p d e → (k, pos, j, rel) ∈ e.relocs → rel.r_sym ≠ 0 → rel.r_sym < e.syms.length ∧ 0 < pos
  libraries : ∀ p ∈ l.options.sharedLibs.map (·.1), p.file.isSome ∧ ∀ d, env.read p = some d → (env.parseElf d).isSome
  members : ∀ p ∈ l.archives, ∀ data ar n m, env.read p = some data → env.parseAr data = some ar → ar.memberOfSymbol n = some m →
    ∃ d, ar.get m = some d ∧ ∀ e, env.parseElf d = some e → e.isObjectFile = true

/-- the relocation as it is handed to the writer -/
def InReloc.rela (rel : InReloc) : Rela :=
  { r_offset := rel.r_offset, r_info := rel.r_sym * 2 ^ 32 + rel.r_type, r_addend := rel.r_addend.getD 0 }

/-- the bytes of a section in its file -/
def sectionSlice (d : Bytes) (sh : SectionHeader) : Bytes := (d.drop sh.sh_offset).take sh.sh_size

/-- all symbols of that name are thread-local -/
def TlsName (env : Env) (l : Linker) (n : Name) : Prop :=
  n ≠ [] ∧ ∀ p d e s, InputAt env l p d e → s ∈ e.syms → e.symName s.st_name = some n → s.st_info % 16 = 6

/-- Relocations the linker implements: they are in sections that have data and are loaded, inside the data, of a kind that is implemented, in
an instruction that can be relaxed if it has to be, not two about the same bytes. -/
structure SoundRelocs (env : Env) (l : Linker) : Prop where
  type : ∀ p d e k pos j rel, InputAt env l p d e → (k, pos, j, rel) ∈ e.usedRelocs →
    relType rel.rela ∈ [0, 1, 2, 3, 4, 10, 11, 19, 22, 23, 41, 42]
  home : ∀ p d e k pos j rel sh, InputAt env l p d e → (k, pos, j, rel) ∈ e.usedRelocs → e.sectionHeaders[pos - 1]? = some sh →
    sh.sh_type ≠ 8 ∧ (relField rel.rela).1 + (relField rel.rela).2 ≤ sh.sh_size ∧
    (relType rel.rela = 41 → CallOrJump (sectionSlice d sh) rel.r_offset) ∧
    (relType rel.rela = 42 → LoadRip (sectionSlice d sh) rel.r_offset)
  tls : ∀ p d e k pos j rel s n, InputAt env l p d e → (k, pos, j, rel) ∈ e.usedRelocs → relType rel.rela = 19 ∨ relType rel.rela = 22 →
    e.syms[rel.r_sym]? = some s → e.symName s.st_name = some n → TlsName env l n
  apart : ∀ p d e, InputAt env l p d e →
    e.usedRelocs.Pairwise fun a b => a.2.1 = b.2.1 → Apart (relField a.2.2.2.rela) (relField b.2.2.2.rela)
  loaded : ∀ p d e k pos j rel sh n, InputAt env l p d e → (k, pos, j, rel) ∈ e.usedRelocs → e.sectionHeaders[pos - 1]? = some sh →
    e.secName sh.sh_name = some n → ∀ p' d' e' sh', InputAt env l p' d' e' → e'.Copies sh' n → sh'.sh_flags / 2 % 2 = 1

/-- the section flags of the inputs are among those of the list, of at most 1000 -/
structure FewFlags (env : Env) (l : Linker) (F : List Nat) : Prop where
  flags : ∀ p d e sh n, InputAt env l p d e → e.Copies sh n → sh.sh_flags ∈ F
  few : F.length ≤ 1000

/-- the numbers of section headers and symbols fit the fields they are read from -/
structure FieldNumbers (env : Env) (l : Linker) : Prop where
  sections : ∀ p d e sh, InputAt env l p d e → sh ∈ e.sectionHeaders → sh.Fits
  symbols : ∀ p d e s, InputAt env l p d e → s ∈ e.syms → s.Fits
  dynsyms : ∀ p s n, LibraryHas env l p s n → s.Fits

/-- how much a file brings: its sections, symbols and relocations, with generous room for what the linker adds for each of them -/
def ElfFile.cost (e : ElfFile) : Nat :=
  (e.copied.map fun x => x.1.sh_size + ((e.secName x.1.sh_name).getD []).length + 4400).sum +
    (e.syms.map fun s => ((e.symName s.st_name).getD []).length + 200).sum + 64 * e.usedRelocs.length

/-- the number of definitions of a name in a file; section symbols do not count -/
def ElfFile.definitions (e : ElfFile) (n : Name) : Nat :=
  (e.syms.filter fun s => s.st_info % 16 ≠ 3 ∧ s.st_shndx ≠ 0 ∧ e.symName s.st_name = some n).length

/-- The objects of the command line are of moderate size: symbol values and addends are at most `V`, a name has at most `K` definitions, and
all files together are far from filling 2 GiB. With `V` below 64 MiB and `K = 1` there is room for images of about 78 MiB. -/
structure SmallObjects (env : Env) (l : Linker) (V K : Nat) : Prop where
  values : ∀ x ∈ objectsOf env l, ∀ s ∈ x.elf.syms, s.st_value ≤ V
  addends : ∀ x ∈ objectsOf env l, ∀ y ∈ x.elf.usedRelocs, -(V : Int) ≤ y.2.2.2.r_addend.getD 0 ∧ y.2.2.2.r_addend.getD 0 ≤ V
  definitions : 1 ≤ K ∧ ∀ n, ((objectsOf env l).map fun x => x.elf.definitions n).sum ≤ K
  small : 4 * (V + (K + 5) * (0x200000 + 1024 + baseCost l.options + ((objectsOf env l).map fun x => x.elf.cost).sum)) < 2 ^ 31

end Dld
