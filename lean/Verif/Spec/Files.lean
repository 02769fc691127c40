import Verif.Spec.Sound
import Verif.Spec.Refs
import Verif.Spec.Contents
/-! # Specification: where the parts of the input files belong in the output

All in terms of the object files of a link, in the order in which they are linked. -/
namespace Dld
open Spec

/-- the sections of the file that are copied to the output section `n` -/
def ElfFile.named (e : ElfFile) (n : Name) : List (SectionHeader × Nat) := e.copied.filter fun s => e.secName s.1.sh_name = some n

/-- the number of bytes of a file that go to the output section `n` -/
def ElfFile.bytesOf (e : ElfFile) (n : Name) : Nat := ((e.named n).map (·.1.sh_size)).sum

/-- the number of bytes that sections before number `i` put into the output section `n` -/
def ElfFile.bytesBefore (e : ElfFile) (n : Name) (i : Nat) : Nat := (((e.named n).filter fun s => s.2 < i).map (·.1.sh_size)).sum

/-- Where section number `i` of the file `x` starts in the output section `n`, if the files `pre` are linked before `x`: behind everything these
files and the earlier sections of `x` put there. -/
def placeOf (pre : List Loaded) (x : Loaded) (n : Name) (i : Nat) : Nat := (pre.map fun y => y.elf.bytesOf n).sum + x.elf.bytesBefore n i

/-- section number `i` of the file `x` is copied to the output section `n`; its header is `sh` -/
structure SectionOf (x : Loaded) (i : Nat) (sh : SectionHeader) (n : Name) : Prop where
  header : x.elf.sectionHeaders[i]? = some sh
  copied : sh.sh_type ∉ auxiliaryTypes
  name : x.elf.secName sh.sh_name = some n
  named : n ≠ []

/-- The file has the relocation `rel` for its section number `i`, and `rel` has a symbol. The linker takes a relocation section to belong to the
section before it (`C64`). -/
def ElfFile.RelocOf (e : ElfFile) (i : Nat) (rel : InReloc) : Prop := rel.r_sym ≠ 0 ∧ ∃ k j, (k, i + 1, j, rel) ∈ e.relocs

/-- no two relocations of section number `i` change the same bytes -/
def ElfFile.RelocsApart (e : ElfFile) (i : Nat) : Prop :=
  (e.usedRelocs.filter fun y => y.2.1 = i + 1).Pairwise fun y z => Disjoint (siteOf y.2.2.2.rela) (siteOf z.2.2.2.rela)

/-- Section number `i` of the file, with header `sh`, is copied to the output section `m`, has data and the relocation `rel` against the symbol `s`. -/
structure Reference (x : Loaded) (i : Nat) (m : Name) (rel : InReloc) (s : Sym) : Prop where
  home : ∃ sh, SectionOf x i sh m ∧ sh.sh_type ≠ 8
  reloc : x.elf.RelocOf i rel
  apart : x.elf.RelocsApart i
  symbol : x.elf.syms[rel.r_sym]? = some s

/-- `n` belongs to the program itself: no library offers it, or an object file of the command line has a global definition of it -/
def OwnName (env : Env) (l : Linker) (n : Name) : Prop :=
  NotInLibs env l n ∨ ∃ x ∈ objectsOf env l, ∃ s ∈ x.elf.syms, x.elf.symName s.st_name = some n ∧ s.st_info % 16 ≠ 3 ∧ s.st_info / 16 = 1 ∧ s.st_shndx ≠ 0

/-- `n` is left to the libraries: the files mention it as a global or weak symbol and none defines it -/
structure LibraryName (loaded : List Loaded) (n : Name) : Prop where
  named : n ≠ []
  ordinary : n ∉ linkerSymbols
  used : ∃ s, MentionedIn loaded s n
  undefined : ∀ s, MentionedIn loaded s n → s.st_shndx = 0 ∧ (s.st_info / 16 = 1 ∨ s.st_info / 16 = 2)

/-- symbol number `j` of the file is `s` with the name `n`, and not a section symbol -/
def SymbolOf (x : Loaded) (j : Nat) (s : Sym) (n : Name) : Prop :=
  x.elf.syms[j]? = some s ∧ x.elf.symName s.st_name = some n ∧ s.st_info % 16 ≠ 3

/-- Symbol number `j` of the file `x`, linked after `pre` and before `post`, is the only definition of `n`, in section number `s.st_shndx` of the file.
Either no mention of `n` has another value, as is the case for the start of a section, or the definition comes after weaker mentions only. -/
structure Definition (pre : List Loaded) (x : Loaded) (post : List Loaded) (j : Nat) (s : Sym) (n : Name) : Prop where
  named : n ≠ []
  ordinary : n ∉ linkerSymbols
  symbol : SymbolOf x j s n
  defined : s.st_shndx ≠ 0
  absolute : s.st_shndx ≠ 0xfff1
  only : ∀ y ∈ pre ++ x :: post, ∀ j' s', SymbolOf y j' s' n → s'.st_shndx ≠ 0 → y = x ∧ j' = j
  kept : (∀ y ∈ pre ++ x :: post, ∀ j' s', SymbolOf y j' s' n → s'.st_value = s.st_value) ∨
    ((∀ y ∈ pre ++ x :: post, ∀ j' s', SymbolOf y j' s' n → s'.st_info / 16 ≤ 2 ∧ bindRank s' ≤ bindRank s) ∧
      (∀ y ∈ pre, ∀ j' s', SymbolOf y j' s' n → bindRank s' < bindRank s) ∧ ∀ j' s', SymbolOf x j' s' n → j' < j → bindRank s' < bindRank s)

/-- section number `i` of the file `x` is the first that the output section `m` gets -/
def FirstOf (pre : List Loaded) (x : Loaded) (m : Name) (i : Nat) : Prop := (∀ y ∈ pre, y.elf.named m = []) ∧ ∀ t ∈ x.elf.named m, i ≤ t.2

/-- object files have no hash tables: `SHT_HASH` (5), `SHT_GNU_HASH` -/
def NoHashSections (env : Env) (l : Linker) : Prop :=
  ∀ e sh n, IsInput env l e → e.Copies sh n → sh.sh_type ≠ 5 ∧ sh.sh_type ≠ 0x6ffffff6

end Dld
