import Verif.Spec.Sound
/-! # Programs of moderate size with libraries (C98, C140, C141) -/
namespace Dld

/-- how much a library can bring: for each of its symbols room for a copy, the name and the file name of the library, with generous room for what the
linker adds -/
def libraryCost (env : Env) (p : Path) : Nat :=
  match (env.read p).bind env.parseElf with
  | some e => (e.dynsyms.map fun s => s.st_size + ((e.dynName s.st_name).getD []).length + 200 + ((p.file.getD []).length + 32)).sum
  | none => 0

/-- The objects and libraries of the command line are of moderate size: as `SmallObjects`, with the libraries. -/
structure SmallProgram (env : Env) (l : Linker) (V K : Nat) : Prop where
  values : ∀ x ∈ objectsOf env l, ∀ s ∈ x.elf.syms, s.st_value ≤ V
  addends : ∀ x ∈ objectsOf env l, ∀ y ∈ x.elf.usedRelocs, -(V : Int) ≤ y.2.2.2.r_addend.getD 0 ∧ y.2.2.2.r_addend.getD 0 ≤ V
  definitions : 1 ≤ K ∧ ∀ n, ((objectsOf env l).map fun x => x.elf.definitions n).sum ≤ K
  small : 4 * (V + (K + 5) * (0x200000 + 1024 + baseCost l.options + (((objectsOf env l).map fun x => x.elf.cost).sum +
    ((l.options.sharedLibs.map (·.1)).map (libraryCost env)).sum))) < 2 ^ 31

end Dld
