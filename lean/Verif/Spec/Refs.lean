import Verif.Spec.Values
import Verif.Spec.Got
import Verif.Spec.Reloc
/-! # Specification: references of the input sections in the output -/
namespace Dld.Spec

/-- the relocations of an input section, in the order of the calls -/
def relocsIn (ops : List Op) (sr : SectionRef) : List (Rela × SymbolRef) :=
  ops.filterMap fun
    | .reloc rel y sr' _ => if sr' = sr then some (rel, y) else none
    | _ => none

/-- the bytes of its input section that a relocation may change, start and length: its field, and the opcode before
it for the relocations that a linker may turn into a different instruction, `GOTPCRELX` (41) and `REX_GOTPCRELX` (42) -/
def siteOf (rel : Rela) : Nat × Nat :=
  if relType rel = 0 then (0, 0)
  else if relType rel = 1 then (rel.r_offset, 8)
  else if relType rel = 41 then (rel.r_offset - 2, 6)
  else if relType rel = 42 then (rel.r_offset - 3, 7)
  else (rel.r_offset, 4)

/-- two ranges of bytes do not overlap -/
def Disjoint (a b : Nat × Nat) : Prop := a.1 + a.2 ≤ b.1 ∨ b.1 + b.2 ≤ a.1

instance (a b : Nat × Nat) : Decidable (Disjoint a b) := by unfold Disjoint; infer_instance

/-- An object file has a section `m` with the relocation `rel` against the symbol `y`, and the relocations of that section do not
overlap. The bytes `rel` applies to belong `off` bytes from the start of the output section `m`: after everything pushed
under the name `m` before, and `rel.r_offset` bytes into the section. -/
def RefersAt (ops : List Op) (m : Name) (off : Nat) (rel : Rela) (y : SymbolRef) : Prop :=
  ∃ a sh data sr b path, ops = a ++ Op.push m sh (some data) sr :: b ∧ Op.reloc rel y sr path ∈ ops ∧
    off = offsetOf m a + rel.r_offset ∧ (relocsIn ops sr).Pairwise fun e e' => Disjoint (siteOf e.1) (siteOf e'.1)

/-- `RefersAt`, with the data of the section -/
def RefersIn (ops : List Op) (m : Name) (off : Nat) (rel : Rela) (y : SymbolRef) (data : Bytes) : Prop :=
  ∃ a sh sr b path, ops = a ++ Op.push m sh (some data) sr :: b ∧ Op.reloc rel y sr path ∈ ops ∧
    off = offsetOf m a + rel.r_offset ∧ (relocsIn ops sr).Pairwise fun e e' => Disjoint (siteOf e.1) (siteOf e'.1)

/-- the field of 4 or 8 bytes at `off` of a section, as a signed number -/
def fieldOf (file : List UInt8) (o : EShdr) (off k : Nat) : Int := sfield (bodyOf file o) off k

/-- The field of the relocation `rel` at `off` of the section `o` leads to the address `S`: `R_X86_64_64` (1), `32` (10) and `32S` (11, when
the value fits) hold the address plus addend, `PC32` (2) and `PLT32` (4) the distance to it from the field. -/
structure Reaches (file : List UInt8) (o : EShdr) (off : Nat) (rel : Rela) (S : Nat) : Prop where
  abs64 : relType rel = 1 → fieldOf file o off 8 = S + rel.r_addend
  abs32 : relType rel = 10 → fieldOf file o off 4 = S + rel.r_addend
  abs32s : relType rel = 11 → fitsSigned 4 (S + rel.r_addend) → fieldOf file o off 4 = S + rel.r_addend
  rel32 : relType rel = 2 ∨ relType rel = 4 → fieldOf file o off 4 = S + rel.r_addend - (o.addr + off : Nat)

end Dld.Spec
