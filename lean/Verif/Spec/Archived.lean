import Verif.Spec.CompleteAll
/-! # Specification: objects that are put into an archive (C159) -/
namespace Dld
open Spec

/-- the file defines `n` globally -/
def ElfFile.exports (e : ElfFile) (n : Name) : Prop :=
  ∃ s ∈ e.syms, e.symName s.st_name = some n ∧ s.st_info % 16 ≠ 3 ∧ s.st_shndx ≠ 0 ∧ s.st_info / 16 = 1

/-- The archive was made of these object files: its members are copies of the files, each once, and its index has the names that they define globally. -/
structure ArchiveOf (env : Env) (ar : ArFile) (packed : List Path) : Prop where
  members : ∀ m d, ar.get m = some d → ∃ o ∈ packed, env.read o = some d
  index : ∀ n m, ar.memberOfSymbol n = some m → ∃ d e, ar.get m = some d ∧ env.parseElf d = some e ∧ e.isObjectFile = true ∧ e.exports n
  complete : ∀ o ∈ packed, ∀ d e n, env.read o = some d → env.parseElf d = some e → e.exports n → (ar.memberOfSymbol n).isSome
  once : ∀ m m' d, ar.get m = some d → ar.get m' = some d → m = m'

/-- The first command line has objects and libraries; in the second one some of the objects are replaced by an archive of them. -/
structure Archived (env : Env) (l l' : Linker) (p : Path) (packed : List Path) : Prop where
  objects : l.objects.Perm (l'.objects ++ packed)
  before : l.archives = []
  after : l'.archives = [p]
  rest : l' = { l with objects := l'.objects, archives := l'.archives }
  archive : ∃ data ar, env.read p = some data ∧ env.parseAr data = some ar ∧ ArchiveOf env ar packed

end Dld
