import Verif.Spec.History
import Verif.Spec.File
import Verif.Spec.X86
import Verif.Model.Name
/-! # Specification: who needs GOT and PLT slots

Relocation type numbers are those of the x86-64 psABI. -/
namespace Dld.Spec

/-- the type of a relocation: the low 32 bits of `r_info` -/
def relType (rel : Rela) : Nat := rel.r_info % 2 ^ 32

/-- the relocation types computed from a GOT slot: `GOT32`, `GOTPCREL`, `TLSGD`, `GOTTPOFF`, `GOTOFF64`,
`GOTPC32`, `GOTPCRELX`, `REX_GOTPCRELX` -/
def gotTypes : List Nat := [3, 9, 19, 22, 25, 26, 41, 42]

/-- the relocation refers to the GOT -/
def UsesGot (rel : Rela) : Prop := relType rel ∈ gotTypes
/-- the relocation is a call through the PLT: `PLT32` -/
def UsesPlt (rel : Rela) : Prop := relType rel = 4

instance (rel : Rela) : Decidable (UsesGot rel) := by unfold UsesGot; infer_instance
instance (rel : Rela) : Decidable (UsesPlt rel) := by unfold UsesPlt; infer_instance

/-- the relocations of all sections, in order -/
def relocsOf (w : Writer) : List (Rela × SymbolRef) := w.sections.flatMap fun s => s.chunks.flatMap (·.relocations)

/-- the symbol is provided by a shared library -/
def Imported (t : SymbolTable) (r : SymbolRef) : Prop := ∃ s, t.get r = some s ∧ s.dynamic.isSome = true

/-- the symbol is thread-local -/
def ThreadLocal (t : SymbolTable) (r : SymbolRef) : Prop := ∃ s, t.get r = some s ∧ s.sym.st_info % 16 = 6

instance (t : SymbolTable) (r : SymbolRef) : Decidable (Imported t r) :=
  match h : t.get r with
  | none => .isFalse (by rintro ⟨s, hs, _⟩; rw [h] at hs; cases hs)
  | some s => if hd : s.dynamic.isSome = true then .isTrue ⟨s, h, hd⟩
    else .isFalse (by rintro ⟨s', hs, hd'⟩; rw [h] at hs; cases hs; exact hd hd')

instance (t : SymbolTable) (r : SymbolRef) : Decidable (ThreadLocal t r) :=
  match h : t.get r with
  | none => .isFalse (by rintro ⟨s, hs, _⟩; rw [h] at hs; cases hs)
  | some s => if hd : s.sym.st_info % 16 = 6 then .isTrue ⟨s, h, hd⟩
    else .isFalse (by rintro ⟨s', hs, hd'⟩; rw [h] at hs; cases hs; exact hd hd')

/-- After the calls `ops` the symbol `n` is provided by a shared library: a library offered it after an
object file had mentioned it. -/
def ImportedIn (ops : List Op) (n : Name) : Prop :=
  ∃ a e path d b, ops = a ++ Op.dynsym e n path d :: b ∧ ∃ s sec p r, Op.sym s sec n p r ∈ a

/-- consecutive ranges: each entry starts where the one before ends; the first at `a`, the last ends at `b` -/
def Packed {κ : Type} : Nat → List (κ × Nat × Nat) → Nat → Prop
  | a, [], b => a = b
  | a, (_, o, n) :: l, b => o = a ∧ 0 < n ∧ Packed (a + n) l b

/-- the object files refer to the symbol `n` by `r` -/
def Refers (ops : List Op) (r : SymbolRef) (n : Name) : Prop := ∃ s sec path, Op.sym s sec n path r ∈ ops ∧ s.st_info % 16 ≠ 3

/-- some object calls the symbol `n` through the PLT -/
def CalledIn (ops : List Op) (n : Name) : Prop := ∃ r rel sr path, Refers ops r n ∧ Op.reloc rel r sr path ∈ ops ∧ UsesPlt rel

/-- some object refers to the symbol `n` through the GOT -/
def GotUsedIn (ops : List Op) (n : Name) : Prop := ∃ r rel sr path, Refers ops r n ∧ Op.reloc rel r sr path ∈ ops ∧ UsesGot rel

/-- the name of entry `k` of the dynamic symbol table of a file -/
def dynName (file : List UInt8) (k : Nat) : Option (List UInt8) :=
  ((symsOf (bodyNamed file b!".dynsym"))[k]?).bind fun s => cstrAt (bodyNamed file b!".dynstr") s.name

/-- The first 16 bytes of `.plt`: push the second word of `.got.plt` and jump through the third. -/
structure PltHeader (file : List UInt8) : Prop where
  push : decodeInstr (bodyNamed file b!".plt") 0 (addrNamed file b!".plt") = some (.pushMem (addrNamed file b!".got.plt" + 8 : Nat), 6)
  jump : decodeInstr (bodyNamed file b!".plt") 6 (addrNamed file b!".plt" + 6) = some (.jmpMem (addrNamed file b!".got.plt" + 16 : Nat), 6)

/-- Entry `i` of `.plt` is a lazily bound call of the dynamic symbol `n`: it jumps through word `i + 3` of
`.got.plt`; that word initially points to the second instruction of the entry, which pushes the position of
a relocation and jumps to the header; the relocation is a `JUMP_SLOT` (7) for the same word and names a
dynamic symbol `n`. -/
structure PltSlot (file : List UInt8) (i j k : Nat) (n : Name) : Prop where
  jump : decodeInstr (bodyNamed file b!".plt") (16 * (i + 1)) (addrNamed file b!".plt" + 16 * (i + 1) : Nat) =
    some (.jmpMem (addrNamed file b!".got.plt" + 8 * (i + 3) : Nat), 6)
  word : field (bodyNamed file b!".got.plt") (8 * (i + 3)) 8 = addrNamed file b!".plt" + 16 * (i + 1) + 6
  push : decodeInstr (bodyNamed file b!".plt") (16 * (i + 1) + 6) (addrNamed file b!".plt" + 16 * (i + 1) + 6 : Nat) = some (.push j, 5)
  back : decodeInstr (bodyNamed file b!".plt") (16 * (i + 1) + 11) (addrNamed file b!".plt" + 16 * (i + 1) + 11 : Nat) =
    some (.jmp (addrNamed file b!".plt"), 5)
  rel : (relasOf (bodyNamed file b!".rela.plt"))[j]? = some ⟨addrNamed file b!".got.plt" + 8 * (i + 3), k, 7, 0⟩
  sym : dynName file k = some n

end Dld.Spec
