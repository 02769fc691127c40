import Verif.Spec.Reached
/-! # Specification: objects and archives in another order -/
namespace Dld
open Spec

/-- the same objects and the same archives in another order, and nothing else changed -/
structure Shuffled (l l' : Linker) : Prop where
  objects : l'.objects.Perm l.objects
  archives : l'.archives.Perm l.archives
  rest : l' = { l with objects := l'.objects, archives := l'.archives }

/-- all definitions of names that some file needs are global -/
def GlobalDefinitions (env : Env) (l : Linker) : Prop :=
  ∀ n, AnyNeeds env l n → ∀ p d j s, InputSym env l p d j s n → s.st_shndx ≠ 0 → s.st_info / 16 = 1

/-- the index of an archive has all global definitions of the members it mentions -/
def WholeIndexes (env : Env) (l : Linker) : Prop :=
  ∀ p ∈ l.archives, ∀ data ar, env.read p = some data → env.parseAr data = some ar → ∀ n m d e, ar.memberOfSymbol n = some m → ar.get m = some d →
    env.parseElf d = some e → ∀ s ∈ e.syms, ∀ n', e.symName s.st_name = some n' → s.st_info % 16 ≠ 3 → s.st_shndx ≠ 0 → s.st_info / 16 = 1 →
      (ar.memberOfSymbol n').isSome

/-- No archive has the symbols of the linker in its index, and if a file needs the bound of an array, then one of the objects has that array. -/
structure LinkerNames (env : Env) (l : Linker) : Prop where
  indexes : ∀ n ∈ linkerSymbols, ¬ InIndex env l n
  bounds : ∀ n ∈ linkerSymbols, AnyNeeds env l n → n = b!"_GLOBAL_OFFSET_TABLE_" ∨ ArrayBound env l n

end Dld
