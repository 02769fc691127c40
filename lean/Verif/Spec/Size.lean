import Verif.Spec.CompleteAll
/-! # How large an executable can be (C160) -/
namespace Dld

/-- What the inputs have room for: 1 KiB for the headers, what the linker always adds, and what the objects, the members of the archives and the libraries
bring. Sections count with their sizes and names, symbols with their names, each with room for what the linker adds for it. -/
def inputSize (env : Env) (l : Linker) : Nat :=
  1024 + baseCost l.options + ((inputsOf env l).map fun x => x.elf.cost).sum + ((l.options.sharedLibs.map (·.1)).map (libraryCost env)).sum

end Dld
