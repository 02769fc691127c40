import Verif.Model.Bytes
/-! # Specification: the last part of a path -/
namespace Dld.Cli

/-- `n` is the last part of the path `p`: what stands behind the last `/`, or all of it -/
structure LastPart (p n : Bytes) : Prop where
  last : p = n ∨ ∃ dir, p = dir ++ [47] ++ n
  one : (47 : UInt8) ∉ n
  name : n ≠ [] ∧ n ≠ b!"." ∧ n ≠ b!".."

end Dld.Cli
