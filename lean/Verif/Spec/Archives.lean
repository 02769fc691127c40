import Verif.Spec.Files
/-! # Which archive provides a symbol -/
namespace Dld

/-- the index of the archive has the name -/
def Offers (env : Env) (p : Path) (n : Name) : Prop :=
  ∃ data ar, env.read p = some data ∧ env.parseAr data = some ar ∧ (ar.memberOfSymbol n).isSome

/-- `p` is the first archive of the command line that has the name -/
def FirstArchive (env : Env) (l : Linker) (p : Path) (n : Name) : Prop :=
  Offers env p n ∧ ∃ a b, l.archives = a ++ p :: b ∧ ∀ p' ∈ a, ¬ Offers env p' n

/-- The linked file `x` is a member of an archive and was linked for the name `n`: at an earlier point of the link, after complete files, `n` had no
definition; the index of the archive gives the member for `n`; and no library has `n`. -/
def LinkedFor (env : Env) (l : Linker) (log : List Call) (x : Loaded) (p : Path) (n : Name) : Prop :=
  ∃ m start data ar q, x.source = .member p m start ∧ env.read p = some data ∧ env.parseAr data = some ar ∧ ar.memberOfSymbol n = some m ∧
    q <+: log.take start ∧ NeededIn env l q n ∧ NotInLibs env l n

end Dld
