import Verif.Model.Writer
import Verif.Spec.File
import Verif.Spec.Got
import Verif.Spec.Hash
import Verif.Spec.Blame
/-! # Specification: what may depend on the order of hash maps -/
namespace Dld

/-- Where the unstable sort moves a section depends on the headers of the sections alone: `π` lists
the old positions in the new order. (`sort_unstable_by` sees the sections only through
`section_cmp`, which reads flags and alignment, `src/elf.rs` 755, 1220-1236.) -/
def Sched.SortsBy (s : Sched) (π : List SectionHeader → List Nat) : Prop :=
  ∀ l : List Section, s.secOrder l = (π (l.map (·.sh))).filterMap fun i => l[i]?

/-- Two runs of the program: hash maps are visited in orders of their own, the unstable sort is the
same function. -/
def SameSort (s s' : Sched) : Prop := ∃ π, s.SortsBy π ∧ s'.SortsBy π

namespace Spec

/-- the sections with tables in the order of a hash map, and those with positions in such tables -/
def orderedSections : List (List UInt8) :=
  [b!".symtab", b!".dynsym", b!".hash", b!".gnu.hash", b!".rela.dyn", b!".rela.plt", b!".plt"]

/-- what the relocations of a type in a section tell the loader: where, and the name of the symbol -/
def bindings (file : List UInt8) (section_ : List UInt8) (type : Nat) : List (Nat × Option (List UInt8)) :=
  ((relasOf (bodyNamed file section_)).filter fun r => r.type == type).map fun r => (r.offset, dynName file r.sym)

/-- the name of the symbol a call adds -/
def mentioned : Op → Option Name
  | .sym _ _ n _ _ => some n
  | _ => none

/-- the names of the symbols the inputs mention -/
def symbolNames (ops : List Op) : List Name := (ops.filterMap mentioned).filter fun n => !n.isEmpty

/-- Different symbols have different hashes, and no hash is that of the null symbol or of the empty
name. (`gnuHash` is what `.symtab` is sorted by, `src/elf/symbol_table.rs` 265-273.) -/
def DistinctHashes (ops : List Op) : Prop :=
  (∀ n ∈ symbolNames ops, ∀ m ∈ symbolNames ops, gnuHash n = gnuHash m → n = m) ∧ ∀ n ∈ symbolNames ops, gnuHash n ≠ 0 ∧ gnuHash n ≠ gnuHash []

instance (ops : List Op) : Decidable (DistinctHashes ops) := by unfold DistinctHashes; infer_instance

/-- no shared library is linked: it would offer its symbols -/
def NoLibraries (ops : List Op) : Prop := ∀ e n path r, Op.dynsym e n path r ∉ ops

end Spec

/-- a symbol of an input file has the name -/
def InputName (env : Env) (l : Linker) (n : Name) : Prop :=
  n ≠ [] ∧ ∃ p d e s, InputAt env l p d e ∧ s ∈ e.syms ∧ e.symName s.st_name = some n

end Dld
