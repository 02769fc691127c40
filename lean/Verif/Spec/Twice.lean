import Verif.Spec.Files
/-! # Specification: names that several files define

Local symbols (`static` functions) belong to their file. Of several weak definitions (inline functions, templates) one is used. In both cases a symbol of the
output is at the place of one of the definitions. -/
namespace Dld
open Spec

/-- symbol number `j` of the file is `s` with the name `n`, defined in a section with contents (header `sh`), which is copied to the output section `m` -/
structure DefinedIn (x : Loaded) (j : Nat) (s : Sym) (n : Name) (sh : SectionHeader) (m : Name) : Prop where
  symbol : SymbolOf x j s n
  absolute : s.st_shndx ≠ 0xfff1
  home : SectionOf x s.st_shndx sh m
  data : sh.sh_type ≠ 8

end Dld
