import Verif.Model.Elf
/-! # Specification vocabulary for symbol resolution

Statements about the sequence of symbols fed to a table; nothing here refers to the table. -/
namespace Dld.Spec

/-- One symbol handed to the table: the ELF symbol (its `st_name` is the interned name), the two
hashes and the file it comes from. -/
structure Add where
  sym : Sym
  hash : UInt32
  gnuHash : UInt32
  ref : Path
  deriving DecidableEq, Repr

namespace Add

/-- ELF64_ST_BIND -/
def bind (a : Add) : Nat := a.sym.st_info / 16
/-- ELF64_ST_TYPE -/
def type (a : Add) : Nat := a.sym.st_info % 16
/-- section symbols have no name of their own -/
def isSection (a : Add) : Prop := a.type = 3
/-- the symbol is defined in its file (`st_shndx` is not `SHN_UNDEF`) -/
def defined (a : Add) : Prop := a.sym.st_shndx ≠ 0
/-- `STB_LOCAL`, `STB_GLOBAL` or `STB_WEAK` -/
def stdBind (a : Add) : Prop := a.bind = 0 ∨ a.bind = 1 ∨ a.bind = 2
/-- strength of a binding: local < weak < global -/
def rank (a : Add) : Nat := if a.bind = 1 then 2 else if a.bind = 2 then 1 else 0
/-- a strong definition of `n` -/
def strongDef (n : Nat) (a : Add) : Prop :=
  ¬ a.isSection ∧ a.sym.st_name = n ∧ a.bind = 1 ∧ a.defined
/-- a mention of the name `n` -/
def mentions (n : Nat) (a : Add) : Prop := ¬ a.isSection ∧ a.sym.st_name = n

instance (a : Add) : Decidable a.isSection := by unfold isSection; infer_instance
instance (a : Add) : Decidable a.defined := by unfold defined; infer_instance
instance (a : Add) : Decidable a.stdBind := by unfold stdBind; infer_instance
instance (n : Nat) (a : Add) : Decidable (a.strongDef n) := by unfold strongDef; infer_instance
instance (n : Nat) (a : Add) : Decidable (a.mentions n) := by unfold mentions; infer_instance

end Add
end Dld.Spec
