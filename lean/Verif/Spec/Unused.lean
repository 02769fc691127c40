import Verif.Spec.Blame
/-! # Specification: libraries and archives that a link does not use -/
namespace Dld

/-- a file that can take part in the link leaves `n` undefined -/
def LeftOpen (env : Env) (l : Linker) (n : Name) : Prop :=
  ∃ e s, IsInput env l e ∧ s ∈ e.syms ∧ e.symName s.st_name = some n ∧ s.st_shndx = 0 ∧ (s.st_info / 16 = 1 ∨ s.st_info / 16 = 2)

/-- the library is well-formed and has no symbol that an input leaves undefined -/
structure UnusedLib (env : Env) (l : Linker) (p : Path) : Prop where
  parsed : ∃ data e, env.read p = some data ∧ env.parseElf data = some e ∧ (∀ s ∈ e.dynsyms, ∃ n, e.dynName s.st_name = some n ∧ ¬ LeftOpen env l n)

/-- the archive is well-formed and has no symbol in its index that an input leaves undefined -/
structure UnusedArchive (env : Env) (l : Linker) (p : Path) : Prop where
  parsed : ∃ data ar, env.read p = some data ∧ env.parseAr data = some ar ∧ ∀ q ∈ ar.index, ¬ LeftOpen env l q.1

/-- the library is well-formed, and each symbol it has is one that no input leaves undefined or that one of the libraries `before` has -/
structure SpareLib (env : Env) (l : Linker) (before : List Path) (p : Path) : Prop where
  parsed : ∃ data e, env.read p = some data ∧ env.parseElf data = some e ∧ ∀ s ∈ e.dynsyms, ∃ n, e.dynName s.st_name = some n ∧
    (¬ LeftOpen env l n ∨ ∃ p' ∈ before, ∃ data' e', env.read p' = some data' ∧ env.parseElf data' = some e' ∧ ∃ s' ∈ e'.dynsyms, e'.dynName s'.st_name = some n)

/-- the archive is well-formed, and each symbol in its index is one that no input leaves undefined or that a library has -/
structure SpareArchive (env : Env) (l : Linker) (p : Path) : Prop where
  parsed : ∃ data ar, env.read p = some data ∧ env.parseAr data = some ar ∧ ∀ q ∈ ar.index, ¬ LeftOpen env l q.1 ∨ ∃ p' s', LibraryHas env l p' s' q.1

/-- the link with one more library -/
def Linker.withLib (l : Linker) (before : List (Path × Bool)) (p : Path × Bool) (after : List (Path × Bool)) : Linker :=
  { l with options := { l.options with sharedLibs := before ++ p :: after } }

/-- the link with one more archive -/
def Linker.withArchive (l : Linker) (p : Path) : Linker := { l with archives := p :: l.archives }

/-- For every order in which one link visits its hash tables there is an order for the other with the same outcome: the same bytes, the same
error, or the same number of rounds without an end. -/
structure SameOutcomes (env : Env) (l l' : Linker) : Prop where
  right : ∀ sched, sched.Valid → ∃ sched', sched'.Valid ∧ ∀ fuel, Linker.link env l' sched' fuel = Linker.link env l sched fuel
  left : ∀ sched', sched'.Valid → ∃ sched, sched.Valid ∧ ∀ fuel, Linker.link env l' sched' fuel = Linker.link env l sched fuel

end Dld
