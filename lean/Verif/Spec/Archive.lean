import Verif.Spec.Driver
/-! # Archive indexes -/
namespace Dld

/-- every name in the index of an archive is defined by the member the index gives for it -/
def TruthfulIndexes (env : Env) (l : Linker) : Prop :=
  ∀ p ∈ l.archives, ∀ data ar, env.read p = some data → env.parseAr data = some ar →
    ∀ n m d e, ar.memberOfSymbol n = some m → ar.get m = some d → env.parseElf d = some e → e.isObjectFile = true →
      ∃ s ∈ e.syms, e.symName s.st_name = some n ∧ s.st_info % 16 ≠ 3 ∧ s.st_shndx ≠ 0

end Dld
