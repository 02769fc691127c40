import Verif.Spec.Files
/-! # Specification: the private symbols of a file -/
namespace Dld

/-- Symbol number `j` of the file `x` is `s` with the name `n`. It is private to the file (`STB_LOCAL`, 0) and stands for a place in a section of the
file, which has the header `sh` and is copied to the output section `m`. -/
structure PrivateSymbol (x : Loaded) (j : Nat) (s : Sym) (n : Name) (sh : SectionHeader) (m : Name) : Prop where
  symbol : SymbolOf x j s n
  bound : s.st_info / 16 = 0
  home : SectionOf x s.st_shndx sh m
  defined : s.st_shndx ≠ 0
  relative : s.st_shndx ≠ 0xfff1

/-- no file gives the name `n` to all: every symbol of that name is private or a reference -/
def NoPublic (loaded : List Loaded) (n : Name) : Prop := ∀ y ∈ loaded, ∀ j s, SymbolOf y j s n → s.st_info / 16 = 0 ∨ s.st_shndx = 0

end Dld
