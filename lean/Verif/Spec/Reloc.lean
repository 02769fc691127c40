import Verif.Model.SymbolTable
import Verif.Spec.Decode
/-! # Specification: x86-64 psABI relocation values (table 4.9) -/
namespace Dld.Spec

/-- the quantities of the psABI formulas; `G` and `L` exist only for symbols with a GOT slot or a PLT
entry -/
structure RelEnv where
  S : Int
  A : Int
  P : Int
  GOT : Int
  G : Option Int
  L : Option Int

/-- width in bytes and value of the field, by relocation type -/
def psabi (e : RelEnv) : Nat → Option (Nat × Int)
  | 1 => some (8, e.S + e.A)                              -- R_X86_64_64
  | 2 => some (4, e.S + e.A - e.P)                        -- R_X86_64_PC32
  | 3 => e.G.map fun g => (4, g + e.A)                    -- R_X86_64_GOT32
  | 4 => e.L.map fun l => (4, l + e.A - e.P)              -- R_X86_64_PLT32
  | 9 => e.G.map fun g => (4, g + e.GOT + e.A - e.P)      -- R_X86_64_GOTPCREL
  | 10 => some (4, e.S + e.A)                             -- R_X86_64_32
  | 11 => some (4, e.S + e.A)                             -- R_X86_64_32S
  | 19 => e.G.map fun g => (4, g + e.GOT + e.A - e.P)     -- R_X86_64_TLSGD
  | 22 => e.G.map fun g => (4, g + e.GOT + e.A - e.P)     -- R_X86_64_GOTTPOFF
  | 41 => e.G.map fun g => (4, g + e.GOT + e.A - e.P)     -- R_X86_64_GOTPCRELX
  | 42 => e.G.map fun g => (4, g + e.GOT + e.A - e.P)     -- R_X86_64_REX_GOTPCRELX
  | _ => none

/-- does a value fit a signed field of `w` bytes? -/
def fitsSigned (w : Nat) (v : Int) : Prop := -(256 ^ w / 2 : Nat) ≤ v ∧ v < (256 ^ w / 2 : Nat)

end Dld.Spec
