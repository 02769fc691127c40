import Verif.Spec.Files
import Verif.Spec.Loader
/-! # Specification: symbols that are defined, but not in a section of their file -/
namespace Dld
open Spec

/-- Symbol number `j` of the file `x`, linked after `pre` and before `post`, is the only definition of `n`; it is not in a section of `x`, and comes
after weaker mentions of `n` only and before mentions that are not stronger. -/
structure FixedDefinition (pre : List Loaded) (x : Loaded) (post : List Loaded) (j : Nat) (s : Sym) (n : Name) : Prop where
  named : n ≠ []
  ordinary : n ∉ linkerSymbols
  symbol : SymbolOf x j s n
  defined : s.st_shndx ≠ 0
  fixed : s.st_shndx = 0xfff1 ∨ x.elf.sectionHeaders.length ≤ s.st_shndx
  only : ∀ y ∈ pre ++ x :: post, ∀ j' s', SymbolOf y j' s' n → s'.st_shndx ≠ 0 → y = x ∧ j' = j
  binds : ∀ y ∈ pre ++ x :: post, ∀ j' s', SymbolOf y j' s' n → s'.st_info / 16 ≤ 2 ∧ bindRank s' ≤ bindRank s
  before : (∀ y ∈ pre, ∀ j' s', SymbolOf y j' s' n → bindRank s' < bindRank s) ∧ ∀ j' s', SymbolOf x j' s' n → j' < j → bindRank s' < bindRank s

/-- the executable has one symbol `n`, and it stands for `size` bytes of their own: they are inside an allocated section with room for them, at an
address that `align` divides -/
def HasStorage (file : Bytes) (n : Name) (size align : Nat) : Prop :=
  ∃ y o, symbolsNamed file n = [y] ∧ o ∈ shdrs file ∧ o.allocated = true ∧ o.addr ≤ y.value ∧ y.value + size ≤ o.addr + o.size ∧ align ∣ y.value

/-- `n` is a weak reference that nothing satisfies: an object file of the command line refers to it, every file that can be linked has it as a weak
undefined symbol at most, and no library has it. -/
structure OpenWeak (env : Env) (l : Linker) (n : Name) : Prop where
  named : n ≠ []
  ordinary : n ∉ linkerSymbols
  used : ∃ x ∈ objectsOf env l, ∃ s ∈ x.elf.syms, x.elf.symName s.st_name = some n ∧ s.st_info % 16 ≠ 3
  weak : ∀ e, IsInput env l e → ∀ s ∈ e.syms, e.symName s.st_name = some n → s.st_info % 16 ≠ 3 → s.st_shndx = 0 ∧ s.st_info / 16 = 2
  missing : NotInLibs env l n

/-- the dynamic relocations of the executable -/
def dynRelocs (file : Bytes) : List ERela := relasOf (bodyNamed file b!".rela.dyn") ++ relasOf (bodyNamed file b!".rela.plt")

end Dld
