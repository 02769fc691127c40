import Verif.Spec.Files
import Verif.Spec.Blame
/-! # Names that two linked files define -/
namespace Dld

/-- symbol number `j` of the file is a global definition of `n` -/
def Strong (x : Loaded) (j : Nat) (n : Name) : Prop :=
  ∃ s, SymbolOf x j s n ∧ s.st_info / 16 = 1 ∧ s.st_shndx ≠ 0

/-- the file `p` defines `n` globally -/
def DefinesGlobally (env : Env) (p : Path) (n : Name) : Prop :=
  ∃ d e s, env.read p = some d ∧ env.parseElf d = some e ∧ e.isObjectFile = true ∧ s ∈ e.syms ∧ e.symName s.st_name = some n ∧ s.st_info % 16 ≠ 3 ∧
    s.st_info / 16 = 1 ∧ s.st_shndx ≠ 0

/-- all symbols of that name are local, global or weak -/
def PlainBinds (env : Env) (l : Linker) (n : Name) : Prop :=
  ∀ e, IsInput env l e → ∀ s ∈ e.syms, e.symName s.st_name = some n → s.st_info / 16 ≤ 2

end Dld
