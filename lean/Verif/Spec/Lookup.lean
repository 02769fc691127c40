import Verif.Spec.Got
import Verif.Spec.Hash
import Verif.Spec.HashLookup
/-! # Specification: looking up a dynamic symbol by name in the output

What the dynamic loader does with the tables of a file: hash the name, walk the chain, compare names. -/
namespace Dld.Spec

/-- look up `n` with `.hash`: the first symbol of the chain with that name -/
def sysvFind (file : List UInt8) (n : List UInt8) : Option Nat :=
  (sysvVisited (bodyNamed file b!".hash") (sysvHash n)).bind fun l => l.find? fun k => dynName file k == some n

/-- look up `n` with `.gnu.hash` -/
def gnuFind (file : List UInt8) (n : List UInt8) : Option Nat :=
  (gnuCandidates (bodyNamed file b!".gnu.hash") (gnuHash n)).bind fun l => l.find? fun k => dynName file k == some n

/-- some library offers the symbol `n` for the link -/
def Offered (ops : List Op) (n : Name) : Prop := ∃ s path r, Op.dynsym s n path r ∈ ops

/-- the symbols that libraries offer have names and are global or weak -/
def ProperDyns (ops : List Op) : Prop :=
  ∀ s n path r, Op.dynsym s n path r ∈ ops → n ≠ [] ∧ (s.st_info / 16 = 1 ∨ s.st_info / 16 = 2)

end Dld.Spec
