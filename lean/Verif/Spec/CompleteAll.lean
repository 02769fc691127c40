import Verif.Spec.CompleteAr
import Verif.Spec.CompleteLib
/-! # Programs of moderate size with archives and libraries (C98, C140, C157) -/
namespace Dld

/-- The objects, the members of the archives and the libraries are of moderate size: as `SmallInputs`, with the libraries. -/
structure SmallWhole (env : Env) (l : Linker) (V K : Nat) : Prop where
  values : ∀ x ∈ inputsOf env l, ∀ s ∈ x.elf.syms, s.st_value ≤ V
  addends : ∀ x ∈ inputsOf env l, ∀ y ∈ x.elf.usedRelocs, -(V : Int) ≤ y.2.2.2.r_addend.getD 0 ∧ y.2.2.2.r_addend.getD 0 ≤ V
  definitions : 1 ≤ K ∧ ∀ n, ((inputsOf env l).map fun x => x.elf.definitions n).sum ≤ K
  small : 4 * (V + (K + 5) * (0x200000 + 1024 + baseCost l.options + (((inputsOf env l).map fun x => x.elf.cost).sum +
    ((l.options.sharedLibs.map (·.1)).map (libraryCost env)).sum))) < 2 ^ 31

end Dld
