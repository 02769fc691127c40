import Verif.Model.SymbolTable
/-! # `src/elf/plt.rs` and `src/elf/copy_rel.rs` -/
namespace Dld

/-- `elf::PLT_ENTRY_JMP_INSTR_SIZE`, `PLT_ENTRY_PUSH_INSTR_SIZE`, `PLT_ENTRY_SIZE`
(`src/elf.rs` 68-71, `src/elf/plt.rs` 8) -/
def PLT_ENTRY_JMP_INSTR_SIZE : Nat := 6
def PLT_ENTRY_PUSH_INSTR_SIZE : Nat := 5
def PLT_ENTRY_SIZE : Nat := 16

/-- `Plt` (`src/elf/plt.rs` 10-14): symbol to slot, slots starting from 0. -/
abbrev Plt := List (SymbolRef × Nat)

/-- `Plt::insert` (`src/elf/plt.rs` 17-20) -/
def Plt.insert (p : Plt) (r : SymbolRef) : Nat × Plt :=
  match AMap.get? p r with
  | some i => (i, p)
  | none => (p.length, p ++ [(r, p.length)])

/-- the header template (`src/elf/plt.rs` 37-41) -/
def pltHeader : Bytes :=
  [0xff, 0x35, 0x00, 0x00, 0x00, 0x00,
   0xff, 0x25, 0x00, 0x00, 0x00, 0x00,
   0x90, 0x90, 0x90, 0x90]

/-- the entry template (`src/elf/plt.rs` 44-48) -/
def pltEntry : Bytes :=
  [0xff, 0x25, 0x00, 0x00, 0x00, 0x00,
   0x68, 0x00, 0x00, 0x00, 0x00,
   0xe9, 0x00, 0x00, 0x00, 0x00]

/-- the chunk built by `Plt::expand` (`src/elf/plt.rs` 36-53) -/
def Plt.chunk (p : Plt) : Bytes := pltHeader ++ (List.replicate p.length pltEntry).flatten

/-- the size set by `Plt::expand` (`src/elf/plt.rs` 31-32) -/
def Plt.size (p : Plt) : Nat := (p.length + 1) * PLT_ENTRY_SIZE

/-- `CopyRel` (`src/elf/copy_rel.rs` 10-16) -/
structure CopyRel where
  size : Nat := 0
  slots : List (SymbolRef × Nat) := []
  deriving DecidableEq, Repr

/-- `CopyRel::insert` (`src/elf/copy_rel.rs` 19-24) -/
def CopyRel.insert (c : CopyRel) (sym : SymbolRef) (size : Nat) : Nat × CopyRel :=
  (c.size, { size := c.size + size, slots := AMap.insert c.slots sym c.size })

end Dld
