import Verif.Spec.Driver
/-! # More shared libraries (C156) -/
namespace Dld

/-- The second command line has the libraries of the first one and possibly others, in any order; the rest is the same. -/
structure MoreLibraries (l l' : Linker) : Prop where
  libs : ∃ extra, (l'.options.sharedLibs.map (·.1)).Perm (l.options.sharedLibs.map (·.1) ++ extra)
  rest : l' = { l with options := { l.options with sharedLibs := l'.options.sharedLibs } }

/-- Every library can be read, is an ELF file and has names for its symbols. -/
def ReadableLibraries (env : Env) (l : Linker) : Prop :=
  ∀ p ∈ l.options.sharedLibs.map (·.1), ∃ d e, env.read p = some d ∧ env.parseElf d = some e ∧ ∀ s ∈ e.dynsyms, (e.dynName s.st_name).isSome

end Dld
