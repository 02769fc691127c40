import Verif.Spec.Files
/-! # Visibility of symbols (gABI, "Symbol Table": `st_other`) -/
namespace Dld
open Spec

/-- How much the visibility in `st_other` constrains: `STV_DEFAULT` (0), `STV_PROTECTED` (3), `STV_HIDDEN` (2) and `STV_INTERNAL` (1), in the order in
which the gABI has the stricter one win. -/
def strictness (other : Nat) : Nat := match other % 4 with | 0 => 0 | 3 => 1 | 2 => 2 | _ => 3

/-- the symbol must be found among the linked files: hidden or internal -/
def Confined (s : Sym) : Prop := 2 ≤ strictness s.st_other

instance (s : Sym) : Decidable (Confined s) := inferInstanceAs (Decidable (_ ≤ _))

/-- Symbol number `j` of the file `x`, linked after `pre` and before `post`, is the first of the strongest mentions of `n`: those in front of it have a
weaker binding, those behind it no stronger one. -/
structure FirstStrongest (pre : List Loaded) (x : Loaded) (post : List Loaded) (j : Nat) (s : Sym) (n : Name) : Prop where
  named : n ≠ []
  ordinary : n ∉ linkerSymbols
  symbol : SymbolOf x j s n
  binds : ∀ y ∈ pre ++ x :: post, ∀ j' s', SymbolOf y j' s' n → s'.st_info / 16 ≤ 2 ∧ bindRank s' ≤ bindRank s
  before : (∀ y ∈ pre, ∀ j' s', SymbolOf y j' s' n → bindRank s' < bindRank s) ∧ ∀ j' s', SymbolOf x j' s' n → j' < j → bindRank s' < bindRank s

end Dld
